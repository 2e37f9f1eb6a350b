import Verif.Props.UntilRun
import Verif.Proofs.Nnf

/-!
# Property C70: equivalent formulas

Two formulas with the same robustness on every trace should be evaluated to the same number.
They are if one comes from the other by moving negations (`nnf`, Spec/Nnf.lean); they are not in
general.
-/

namespace STLRom
namespace Props
open Signal Spec

/-- The full claim, for formulas without `until` over traces that reach both horizons. -/
def C70_full : Prop := ∀ (g : Globals) (m : Monitor) (n : ℕ) (T T' : Tr) (t : ℚ),
  Ready .LINEAR n g.B m T t t → Ready .LINEAR n g.B { m with formula := some T' } T' t t →
    (∀ ip D P t, rob ip D P T t = rob ip D P T' t) →
    (m.evalRob1 g t).2.2 = ({ m with formula := some T' }.evalRob1 g t).2.2

/-- `nnf` keeps the robustness, and turns it round if started with a negation. -/
theorem C70_same (ip : Interpol) (D : List (List ℚ)) (P : Assoc ℚ) (T : Tr) (hT : IsStl T) (t : ℚ) :
    rob ip D P (nnf false T) t = rob ip D P T t ∧ rob ip D P (nnf true T) t = -rob ip D P T t := by
  have := fun b => rob_nnf ip D P T b t hT
  exact ⟨this false, this true⟩

/-- C70 for moving negations, for every formula, `until` included, every trace, covering or not,
every interpolation and every interval: if both evaluations return, they return the same number.
Missing from the full claim: other equivalences (`C70_false`), and the bounds, which may differ
(`C70_bounds_false`). -/
theorem C70_nnf_partial (g : Globals) (m : Monitor) (T : Tr) (s e v v' : ℚ)
    (hm : m.formula = some T) (hs : m.sem = .SPACE) (hT : IsStl T)
    (h : (m.evalRob g s e).2.2 = .ok v)
    (h' : ({ m with formula := some (nnf false T) }.evalRob g s e).2.2 = .ok v') : v' = v := by
  have key : ∀ (T : Tr) (v : ℚ), IsStl T →
      ({ m with formula := some T }.evalRob g s e).2.2 = .ok v →
      ∃ z p, zOf (m.envOf g) (Monitor.prepare m.params s e T) = .ok z ∧ z.front = .ok p ∧
        p.value = v := by
    intro T v hT h
    unfold Monitor.evalRob at h
    simp only at h
    have hT' : IsStl (Monitor.prepare m.params s e T) := isStl_prepare m.params T s e hT
    unfold Monitor.run3 at h
    cases h1 : Tr.computeRob (m.envOf g) (Monitor.prepare m.params s e T) with
    | error f =>
      rw [show (⟨g.B, m.sem, m.ip, m.data, m.params⟩ : Env) = m.envOf g from rfl, h1] at h
      simp [bind, Except.bind] at h
    | ok q =>
      obtain ⟨T1, r⟩ := q
      rw [show (⟨g.B, m.sem, m.ip, m.data, m.params⟩ : Env) = m.envOf g from rfl, h1] at h
      simp only [bind, Except.bind] at h
      obtain ⟨p, hp, hv⟩ := rob_front hT' h1
      refine ⟨T1.st.z, p, by simp [zOf, h1, Except.map], hp, ?_⟩
      cases h2 : Tr.computeLow (m.envOf g) T1 with
      | error f => rw [h2] at h; simp at h
      | ok q2 =>
        rw [h2] at h
        simp only at h
        cases h3 : Tr.computeUp (m.envOf g) q2.1 with
        | error f => rw [h3] at h; simp at h
        | ok q3 =>
          rw [h3] at h
          simp only [Except.ok.injEq] at h
          rw [hv, h]
  have h0 : { m with formula := some T } = m := by rw [← hm]
  obtain ⟨z, p, h1, h2, h3⟩ := key T v hT (by rw [h0]; exact h)
  obtain ⟨z', p', h1', h2', h3'⟩ := key (nnf false T) v' (isStl_nnf T false hT) h'
  rw [nnf_prepare, zOf_nnf (env := m.envOf g) hs _ false (isStl_prepare m.params T s e hT)
    (atomsNew_fresh _ _ _ (fresh_prepare m.params T s e)), h1] at h1'
  simp only [Except.map, sgn, Except.ok.injEq] at h1'
  subst h1'
  rw [h2] at h2'
  cases h2'
  rw [← h3, h3']

/-- Without `until` both evaluations return. -/
theorem C70_plain_partial (g : Globals) (m : Monitor) (n : ℕ) (T : Tr) (s e : ℚ)
    (hm : m.formula = some T) (hs : m.sem = .SPACE) (hF : IsFormula n m.params T)
    (hD : WellShaped n m.data) (hd : m.data ≠ []) (he : 0 ≤ e) :
    ∃ v, (m.evalRob g s e).2.2 = .ok v ∧
      ({ m with formula := some (nnf false T) }.evalRob g s e).2.2 = .ok v := by
  obtain ⟨v, hv⟩ := (C17_partial g m n T s e hm hF hD he).2.1 hd hs
  obtain ⟨v', hv'⟩ := (C17_partial g { m with formula := some (nnf false T) } n (nnf false T) s e rfl
    (isFormula_nnf n m.params T false hF) hD he).2.1 hd hs
  have := C70_nnf_partial g m T s e v v' hm hs hF.stl hv hv'
  exact ⟨v, hv, by rw [hv', this]⟩

/-- `not (ev_[0,2] (x > 1 and not (alw_[1,3] y > 0)))`. -/
def lawF : Tr :=
  .not .init (evT 0 2 (.and .init (above sx 1) (.not .init (alwT 1 3 (above sy 0)))))

/-- Its normal form is `alw_[0,2] (x < 1 or alw_[1,3] y > 0)`. -/
example : nnf false lawF = alwT 0 2 (.or .init (.atom .init .less sx (num 1)) (alwT 1 3 (above sy 0))) :=
  rfl

example : (({ mon .LINEAR lawF exD with formula := some (nnf false lawF) }).evalRob .init 0 1).2.2 =
    ((mon .LINEAR lawF exD).evalRob .init 0 1).2.2 := by
  obtain ⟨v, h1, h2⟩ := C70_plain_partial .init (mon .LINEAR lawF exD) 2 lawF 0 1 rfl rfl
    ⟨by decide +kernel, by decide +kernel, ⟨⟨1, rfl, by decide, by decide⟩, trivial⟩,
      by decide +kernel, by decide +kernel, ⟨2, rfl, by decide, by decide⟩, trivial⟩
    exD_rows (by decide) (by decide)
  rw [h1, h2]

/-- With `until`, on a trace that ends before the horizon. -/
def lawU : Monitor :=
  mon .LINEAR (.not .init (.or .init (.not .init untF) (above sy 0))) [[0, 1, 1], [3, 2, 5]]

example : nnf false (.not .init (.or .init (.not .init untF) (above sy 0))) =
    .and .init untF (.atom .init .less sy (num 0)) := rfl

example (v' : ℚ) (h : ({ lawU with formula := some (.and .init untF (.atom .init .less sy (num 0))) }.evalRob
    .init 0 0).2.2 = .ok v') : v' = -1 :=
  C70_nnf_partial .init lawU _ 0 0 (-1) v' rfl rfl
    ⟨⟨⟨trivial, trivial⟩, trivial, trivial⟩, trivial, trivial⟩ (by decide +kernel) h

/-- `alw_[0,2] ((ev_[0,3] (x > 0 or x > 0)) or y > 0)`. -/
def idemF : Tr :=
  alwT 0 2 (.or .init (evT 0 3 (.or .init (above sx 0) (above sx 0))) (above sy 0))

theorem idemF_ready : Ready .LINEAR 2 Globals.init.B
    { mon .LINEAR badF badD with formula := some idemF } idemF 0 0 := by
  refine ⟨rfl, rfl, rfl, rfl, badD_rows, ?_, ?_, le_rfl, le_rfl, ?_⟩
  · refine ⟨by decide +kernel, by decide +kernel, ⟨by decide +kernel, by decide +kernel,
      ⟨⟨1, rfl, by decide, by decide⟩, trivial⟩, ⟨1, rfl, by decide, by decide⟩, trivial⟩,
      ⟨2, rfl, by decide, by decide⟩, trivial⟩
  · refine ⟨⟨fun t h _ => ?_, fun t h _ => ?_⟩, fun t h _ => ?_⟩
    · exact trace_abs badD_rows badD_head (by decide) (k := .greater) (l := sx) (r := num 0)
        ⟨trivial, trivial⟩ (by decide +kernel) t (le_trans (by decide +kernel) h)
    · exact trace_abs badD_rows badD_head (by decide) (k := .greater) (l := sx) (r := num 0)
        ⟨trivial, trivial⟩ (by decide +kernel) t (le_trans (by decide +kernel) h)
    · exact trace_abs badD_rows badD_head (by decide) (k := .greater) (l := sy) (r := num 0)
        ⟨trivial, trivial⟩ (by decide +kernel) t (le_trans (by decide +kernel) h)
  · exact ⟨⟨_, 0, rfl, rfl, by decide +kernel⟩, ⟨_, 10, rfl, rfl, by decide +kernel⟩⟩

/-- C70 is false: `x > 0 or x > 0` is not evaluated as `x > 0`. -/
theorem C70_false : ¬ C70_full := by
  intro h
  have h1 := h .init (mon .LINEAR badF badD) 2 badF idemF 0 badF_ready idemF_ready
    fun ip D P t => by simp [badF, idemF, alwT, evT, rob]
  have h2 : ((mon .LINEAR badF badD).evalRob1 .init 0).2.2 = .ok 3 := by decide +kernel
  have h3 : ({ mon .LINEAR badF badD with formula := some idemF }.evalRob1 .init 0).2.2 =
      .ok (23 / 6) := by decide +kernel
  rw [h2, h3] at h1
  norm_num at h1

/-- `x+x > y`. -/
def commP : Tr := .atom .init .greater (.plus .init sx sx) sy

/-- `x-y > x`. -/
def commQ : Tr := .atom .init .greater (.minus .init sx sy) sx

/-- Two rows. -/
def commD : List (List ℚ) := [[0, 0, 1], [3, 3, 2]]

/-- `or` is not commutative: `alw_[0,2] ((p or q) and 0 > 0)` on a trace that reaches the horizon
changes when `p` and `q` are swapped.  (The robustness is -1.) -/
theorem C70_comm_false :
    ((mon .LINEAR (alwT 0 2 (.and .init (.or .init commP commQ) (above (num 0) 0))) commD).evalRob1
      .init 0).2.2 = .ok (-5 / 3) ∧
    ((mon .LINEAR (alwT 0 2 (.and .init (.or .init commQ commP) (above (num 0) 0))) commD).evalRob1
      .init 0).2.2 = .ok (-3) := by
  constructor <;> decide +kernel

/-- `alw_[1,2] y > -5`. -/
def impL : Tr := alwT 1 2 (above sy (-5))

/-- An implication is not evaluated as the disjunction it stands for: `alw_[0,2] (p => x > 0)`
and `alw_[0,2] (not p or x > 0)` on a trace that ends before the horizon. -/
theorem C70_implies_false :
    ((mon .LINEAR (alwT 0 2 (.implies .init impL (above sx 0))) [[0, 1, 1], [2, -2, 1]]).evalRob1
      .init 0).2.2 = .ok (-1 / 2) ∧
    ((mon .LINEAR (alwT 0 2 (.or .init (.not .init impL) (above sx 0)))
      [[0, 1, 1], [2, -2, 1]]).evalRob1 .init 0).2.2 = .ok (-2) := by
  constructor <;> decide +kernel

/-- Moving a negation changes the bounds: `ev_[1,4] not y > 0` and `ev_[1,4] y < 0` after one
row. -/
theorem C70_bounds_false :
    results (mon .LINEAR (evT 1 4 (.not .init (above sy 0))) [[0, -2, -3]]) 0 = (.ok 3, 10000, 10000) ∧
    nnf false (evT 1 4 (.not .init (above sy 0))) = evT 1 4 (.atom .init .less sy (num 0)) ∧
    results (mon .LINEAR (evT 1 4 (.atom .init .less sy (num 0))) [[0, -2, -3]]) 0 =
      (.ok 3, -10000, 10000) := by
  refine ⟨?_, rfl, ?_⟩ <;> decide +kernel

end Props
end STLRom
