import Verif.Model.Update
import Verif.Props.Formula

/-!
# Property C89: `update_robustness`
-/

namespace STLRom
namespace Props
open Spec

/-- Formulas and expressions with two operands. -/
inductive TwoOperands : Tr → Prop where
  | plus (s l r) : TwoOperands (.plus s l r)
  | minus (s l r) : TwoOperands (.minus s l r)
  | mult (s l r) : TwoOperands (.mult s l r)
  | atom (s k l r) : TwoOperands (.atom s k l r)
  | and (s l r) : TwoOperands (.and s l r)
  | or (s l r) : TwoOperands (.or s l r)
  | implies (s l r) : TwoOperands (.implies s l r)
  | untl (s I l r) : TwoOperands (.untl s l I r)

/-- Formulas and expressions with one operand. -/
inductive OneOperand : Tr → Prop where
  | abs (s c) : OneOperand (.abs s c)
  | not (s c) : OneOperand (.not s c)
  | ev (s I c) : OneOperand (.ev s I c)
  | alw (s I c) : OneOperand (.alw s I c)

/-- `update_robustness` returns what `compute_robustness` returns. -/
def C89_full : Prop := ∀ (env : Env) (T : Tr) (T' : Tr) (v : ℚ), T.computeRob env = .ok (T', v) →
  ∃ T'', T.updateRob env = .ok (T'', v)

theorem bind_front {z : M Signal} {f : Signal → Tr} (hf : ∀ z, (f z).st.z = z) :
    (do
      let (T, _) ← (do
        let z ← z
        let p ← z.front
        .ok (f z, p.value) : M (Tr × ℚ))
      let p ← T.st.z.front
      .ok (T, p.value) : M (Tr × ℚ)) = (do
        let z ← z
        let p ← z.front
        .ok (f z, p.value)) := by
  cases z with
  | error e => rfl
  | ok z =>
    show (do
      let (T, _) ← (z.front >>= fun p => .ok (f z, p.value) : M (Tr × ℚ))
      let p ← T.st.z.front
      .ok (T, p.value) : M (Tr × ℚ)) = (z.front >>= fun p => .ok (f z, p.value))
    cases h : z.front with
    | error e => rfl
    | ok p =>
      show ((f z).st.z.front >>= fun p => .ok (f z, p.value) : M (Tr × ℚ)) = .ok (f z, p.value)
      rw [hf, h]
      rfl

/-- **C89**, for formulas and expressions with two operands: the same as `compute_robustness`, with the same effect, in
every state. -/
theorem C89_partial (env : Env) {T : Tr} (h : TwoOperands T) : T.updateRob env = T.computeRob env := by
  cases h <;> (
    simp only [Tr.updateRob, Tr.computeRob]
    rename_i l r
    (cases Tr.computeRob env l with
      | error e => rfl
      | ok l =>
        cases Tr.computeRob env r with
        | error e => rfl
        | ok r => exact bind_front fun _ => rfl))

/-- **C89**, for a signal. -/
theorem C89_signal_partial (env : Env) (s : St) (x : String) (m : Assoc ℕ) (td : Option ℕ) :
    (Tr.sig s x m td).updateRob env = (Tr.sig s x m td).computeRob env := by
  simp only [Tr.updateRob, Tr.computeRob, Tr.sigRob]
  split
  · cases Tr.leafTrim s.start s.stop s.z 0 0 with
    | error e => rfl
    | ok z =>
      obtain ⟨l, b, e⟩ := z
      cases l <;> rfl
  · split
    · rfl
    · split
      · rfl
      · rename_i td _
        cases Tr.sigRead env.ip _ s.stop (env.data.drop td) s.z td 0 0 with
        | error e => rfl
        | ok r =>
          obtain ⟨z, td', t, v⟩ := r
          change ((do
            let __x ← (do
              let __x ← (do
                let z ← Tr.leafTrim s.start s.stop z t v
                let p ← z.front
                Except.ok (z, some td', p.value))
              Except.ok (Tr.sig { s with z := __x.1 } x m __x.2.1, __x.2.2))
            let p ← __x.1.st.z.front
            Except.ok (__x.1, p.value)) : M (Tr × ℚ)) = (do
              let __x ← (do
                let z ← Tr.leafTrim s.start s.stop z t v
                let p ← z.front
                Except.ok (z, some td', p.value))
              Except.ok (Tr.sig { s with z := __x.1 } x m __x.2.1, __x.2.2))
          cases Tr.leafTrim s.start s.stop z t v with
          | error e => rfl
          | ok z =>
            obtain ⟨l, b, e⟩ := z
            cases l <;> rfl

/-- With one operand: the signal of the formula is not computed, and the number returned is the first value of the signal
it had before the call, whatever the data. -/
theorem C89_stale (env : Env) {T T' : Tr} {v : ℚ} (h : OneOperand T) (hv : T.updateRob env = .ok (T', v)) :
    T'.st.z = T.st.z ∧ ∃ p l, T.st.z.samples = p :: l ∧ v = p.value := by
  have key : ∀ (s : St) (c : Tr) (f : Tr → Tr), (∀ c, (f c).st.z = s.z) → (do
      let (c, _) ← c.updateRob env
      let c ← c.keepLast
      let p ← s.z.front
      .ok (f c, p.value) : M (Tr × ℚ)) = .ok (T', v) → T'.st.z = s.z ∧ ∃ p l, s.z.samples = p :: l ∧ v = p.value := by
    intro s c f hf hv
    cases h1 : c.updateRob env with
    | error e => rw [h1] at hv; cases hv
    | ok r =>
      rw [h1] at hv
      change (do
        let c ← r.1.keepLast
        let p ← s.z.front
        .ok (f c, p.value) : M (Tr × ℚ)) = _ at hv
      cases h2 : r.1.keepLast with
      | error e => rw [h2] at hv; cases hv
      | ok c' =>
        rw [h2] at hv
        change (do
          let p ← s.z.front
          .ok (f c', p.value) : M (Tr × ℚ)) = _ at hv
        cases h3 : s.z.samples with
        | nil => rw [show s.z.front = .error .ub by simp [Signal.front, h3]] at hv; cases hv
        | cons p l =>
          rw [show s.z.front = .ok p by simp [Signal.front, h3]] at hv
          cases hv
          exact ⟨hf c', p, l, rfl, rfl⟩
  cases h with
  | abs s c => exact key s c (.abs s) (fun _ => rfl) (by simpa only [Tr.updateRob] using hv)
  | not s c => exact key s c (.not s) (fun _ => rfl) (by simpa only [Tr.updateRob] using hv)
  | ev s I c => exact key s c (.ev s I) (fun _ => rfl) (by simpa only [Tr.updateRob] using hv)
  | alw s I c => exact key s c (.alw s I) (fun _ => rfl) (by simpa only [Tr.updateRob] using hv)

/-- The ways to put an operator with one operand, in the state `s`, above a formula or expression. -/
inductive Wraps (s : St) : (Tr → Tr) → Prop where
  | abs : Wraps s (.abs s)
  | not : Wraps s (.not s)
  | ev (I) : Wraps s (.ev s I)
  | alw (I) : Wraps s (.alw s I)

/-- With one operand: the operand is updated, and of its signal only the last sample is kept; nothing else changes. -/
theorem C89_child (env : Env) {s : St} {f : Tr → Tr} (h : Wraps s f) {c T' : Tr} {v : ℚ}
    (hv : (f c).updateRob env = .ok (T', v)) : ∃ c' w l x, c.updateRob env = .ok (c', w) ∧
      c'.st.z.samples = l ++ [x] ∧ T' = f (c'.setSt { c'.st with z := { c'.st.z with samples := [x] } }) := by
  have e : (f c).updateRob env = (do
      let (c, _) ← c.updateRob env
      let c ← c.keepLast
      let p ← s.z.front
      .ok (f c, p.value) : M (Tr × ℚ)) := by cases h <;> simp only [Tr.updateRob]
  rw [e] at hv
  cases h1 : c.updateRob env with
  | error e => rw [h1] at hv; cases hv
  | ok r =>
    rw [h1] at hv
    change (do
      let c ← r.1.keepLast
      let p ← s.z.front
      .ok (f c, p.value) : M (Tr × ℚ)) = _ at hv
    rcases List.eq_nil_or_concat r.1.st.z.samples with h2 | ⟨l, x, h2⟩
    · rw [show r.1.keepLast = .error .ub by simp [Tr.keepLast, Signal.back, h2]; rfl] at hv
      cases hv
    · rw [show r.1.keepLast = .ok (Tr.setZ { r.1.st.z with samples := [x] } r.1) by
        simp [Tr.keepLast, Signal.back, h2]; rfl] at hv
      refine ⟨r.1, r.2, l, x, rfl, by rw [h2, List.concat_eq_append], ?_⟩
      cases h3 : s.z.front with
      | error e => rw [h3] at hv; cases hv
      | ok p => rw [h3] at hv; cases hv; rfl

/-- With one operand, on a new formula or after `reset`: no number is returned. -/
theorem C89_new_false (env : Env) {T : Tr} (h : OneOperand T) (hz : T.st.z.samples = []) (T' : Tr) (v : ℚ) :
    T.updateRob env ≠ .ok (T', v) := by
  intro hv
  obtain ⟨_, p, l, e, _⟩ := C89_stale env h hv
  rw [hz] at e
  cases e

/-- `not x > 1` as `eval_rob(0, 4)` leaves it before it computes. -/
def notX : Tr := Monitor.prepare [] 0 4 (.not .init (above sx 1))

/-- The data of the examples. -/
def upEnv : Env := ⟨10000, .SPACE, .LINEAR, exD, []⟩

/-- On new formulas `update_robustness` is undefined behaviour where `compute_robustness` returns 1. -/
theorem C89_false : ¬ C89_full := by
  intro h
  have e : (notX.computeRob upEnv).map (·.2) = .ok 1 := by decide +kernel
  cases e' : notX.computeRob upEnv with
  | error f => rw [e'] at e; cases e
  | ok r =>
    obtain ⟨T'', e''⟩ := h upEnv notX r.1 r.2 e'
    exact C89_new_false upEnv (.not _ _) (by decide +kernel) _ _ e''

/-- `x > 1 and not y > 0`: the same as `compute_robustness`. -/
example : ((Monitor.prepare [] 0 4 (.and .init (above sx 1) (.not .init (above sy 0)))).updateRob upEnv).map (·.2) =
    .ok (-1) := by
  rw [C89_partial upEnv (show TwoOperands (Monitor.prepare [] 0 4 (.and .init (above sx 1) (.not .init (above sy 0))))
    from .and _ _ _)]
  decide +kernel

/-- `not x > 1`, computed on the data of the examples and then updated with other data: the number is still 1, while the
operand has the new values. -/
example : ((notX.computeRob upEnv).bind fun r => (r.1.updateRob { upEnv with data := [[0, 5, 1], [4, 5, 0]] }).map (·.2)) =
    .ok 1 := by decide +kernel

example : ((Monitor.prepare [] 0 4 sx).updateRob upEnv).map (·.2) = .ok 0 := by
  rw [show (Monitor.prepare [] 0 4 sx).updateRob upEnv = (Monitor.prepare [] 0 4 sx).computeRob upEnv from
    C89_signal_partial upEnv _ _ _ _]
  decide +kernel

/-- The operand then has one sample, the last one. -/
example : ((notX.computeRob upEnv).bind fun r => (r.1.updateRob upEnv).map fun r => match r.1 with
      | .not _ c => c.st.z.samples.map (·.time)
      | _ => []) = .ok [4] := by decide +kernel

end Props
end STLRom
