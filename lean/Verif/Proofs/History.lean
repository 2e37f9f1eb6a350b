import Verif.Spec.History

/-!
# Evaluation depends on the inputs only
-/

namespace STLRom
open Spec

theorem bind_eq_ok {α β : Type} {x : M α} {f : α → M β} {y : β} :
    (x >>= f) = .ok y ↔ ∃ a, x = .ok a ∧ f a = .ok y := by
  cases x <;> simp [bind, Except.bind]

namespace Tr

/-- `forget`, forgetting literal constants too if `b` (used when a parameter has an empty
name, which then overwrites all literals). -/
def forgetB (b : Bool) : Tr → Tr
  | .sig _ v m _ => .sig .init v m none
  | .const _ p v _ => .const .init p (if p = "" ∧ b = false then v else 0) none
  | .abs _ c => .abs .init (forgetB b c)
  | .plus _ l r => .plus .init (forgetB b l) (forgetB b r)
  | .minus _ l r => .minus .init (forgetB b l) (forgetB b r)
  | .mult _ l r => .mult .init (forgetB b l) (forgetB b r)
  | .atom _ k l r => .atom .init k (forgetB b l) (forgetB b r)
  | .not _ c => .not .init (forgetB b c)
  | .and _ l r => .and .init (forgetB b l) (forgetB b r)
  | .or _ l r => .or .init (forgetB b l) (forgetB b r)
  | .implies _ l r => .implies .init (forgetB b l) (forgetB b r)
  | .ev _ I c => .ev .init I (forgetB b c)
  | .alw _ I c => .alw .init I (forgetB b c)
  | .untl _ l I r => .untl .init (forgetB b l) I (forgetB b r)

theorem forgetB_forget (b : Bool) (T : Tr) : forgetB b (forget T) = forgetB b T := by
  induction T with
  | const s p v td =>
    simp only [forget, forgetB, const.injEq, true_and, and_true]
    by_cases hp : p = "" <;> simp [hp]
  | _ => simp_all [forget, forgetB]

theorem forgetB_clone (b : Bool) (T : Tr) : forgetB b T.clone = forgetB b T := by
  induction T <;> simp_all [clone, forgetB]

theorem forgetB_setParam (b : Bool) (n : String) (x : ℚ) (hn : n = "" → b = true) (T : Tr) :
    forgetB b (T.setParam n x) = forgetB b T := by
  induction T with
  | const s p v td =>
    simp only [setParam, forgetB, const.injEq, true_and, and_true]
    by_cases hp : p = ""
    · by_cases h : n = p
      · simp [hn (h.trans hp)]
      · simp [h]
    · simp [hp]
  | _ => simp_all [setParam, forgetB]

theorem forgetB_setSt (b : Bool) (s : St) (T : Tr) : forgetB b (T.setSt s) = forgetB b T := by
  cases T <;> rfl

theorem forgetB_setZ (b : Bool) (z : Signal) (T : Tr) : forgetB b (T.setZ z) = forgetB b T :=
  forgetB_setSt _ _ _

theorem forgetB_setHorizon (b : Bool) (P : Assoc ℚ) (T : Tr) :
    ∀ s e, forgetB b (T.setHorizon P s e) = forgetB b T := by
  induction T <;> intro s e <;> simp_all [setHorizon, forgetB]

theorem forgetB_reset (b : Bool) (T : Tr) : forgetB b T.reset = forgetB b T := by
  induction T <;> simp_all [reset, forgetB]

theorem forgetB_setTraceData (b : Bool) (T : Tr) : forgetB b T.setTraceData = forgetB b T := by
  induction T <;> simp_all [setTraceData, forgetB]

theorem forgetB_setParamMap {b : Bool} {P : Assoc ℚ} (hb : (P.lookup "").isSome → b = true)
    (T : Tr) : forgetB b (T.setParamMap P) = forgetB b T := by
  induction T with
  | const s p v td =>
    simp only [setParamMap, forgetB, const.injEq, true_and, and_true]
    by_cases hp : p = ""
    · subst hp
      cases hl : P.lookup "" with
      | none => simp [resolve, hl]
      | some w => simp [hb (by simp [hl])]
    · simp [hp]
  | _ => simp_all [setParamMap, forgetB]

theorem forgetB_prepare {b : Bool} {P : Assoc ℚ} (hb : (P.lookup "").isSome → b = true)
    (s e : ℚ) (T : Tr) : forgetB b (Monitor.prepare P s e T) = forgetB b T := by
  rw [Monitor.prepare, forgetB_setHorizon, forgetB_reset, forgetB_setParamMap hb,
    forgetB_setTraceData]

/-- Named constants hold the value evaluation would give them. -/
def canon (P : Assoc ℚ) : Tr → Tr
  | .sig s v m t => .sig s v m t
  | .const s p v t => .const s p (constValue P p v) t
  | .abs s c => .abs s (canon P c)
  | .plus s l r => .plus s (canon P l) (canon P r)
  | .minus s l r => .minus s (canon P l) (canon P r)
  | .mult s l r => .mult s (canon P l) (canon P r)
  | .atom s k l r => .atom s k (canon P l) (canon P r)
  | .not s c => .not s (canon P c)
  | .and s l r => .and s (canon P l) (canon P r)
  | .or s l r => .or s (canon P l) (canon P r)
  | .implies s l r => .implies s (canon P l) (canon P r)
  | .ev s I c => .ev s I (canon P c)
  | .alw s I c => .alw s I (canon P c)
  | .untl s l I r => .untl s (canon P l) I (canon P r)

theorem constValue_constValue (P : Assoc ℚ) (p : String) (v : ℚ) :
    constValue P p (constValue P p v) = constValue P p v := by
  unfold constValue; split_ifs <;> rfl

theorem computeRob_canon (env : Env) (T : Tr) :
    computeRob env (canon env.params T) = computeRob env T := by
  induction T with
  | const s p v td => simp only [canon, computeRob, constValue_constValue]
  | sig s v m td => rfl
  | _ => simp only [canon, computeRob, *]

theorem canon_prepare {b : Bool} {P : Assoc ℚ} (hb : b = true → (P.lookup "").isSome)
    (T : Tr) : ∀ s e, canon P (Monitor.prepare P s e (forgetB b T)) =
      canon P (Monitor.prepare P s e T) := by
  induction T with
  | const s p v td =>
    intro s e
    simp only [Monitor.prepare, forgetB, setTraceData, setParamMap, reset, setHorizon, canon,
      const.injEq, true_and, and_true]
    refine ⟨rfl, ?_⟩
    by_cases hp : p = ""
    · subst hp
      cases hl : P.lookup "" with
      | none =>
        have : b = false := by
          cases b with
          | false => rfl
          | true => have := hb rfl; simp [hl] at this
        simp [this]
      | some w => simp [resolve, hl]
    · simp [constValue, hp]
  | sig s v m td =>
    intro s e
    rfl
  | _ =>
    intro s e
    simp only [Monitor.prepare] at *
    simp [forgetB, setTraceData, setParamMap, reset, setHorizon, canon, resetSt, St.init, *]

end Tr

/-- A run from prepared trees depends on the formula as written only. -/
theorem run3_congr {b : Bool} {env : Env} (hb : b = true → (env.params.lookup "").isSome)
    {T T' : Tr} (h : T.forgetB b = T'.forgetB b) (s e : ℚ) :
    Monitor.run3 env (Monitor.prepare env.params s e T) =
      Monitor.run3 env (Monitor.prepare env.params s e T') := by
  unfold Monitor.run3
  rw [← Tr.computeRob_canon, ← Tr.canon_prepare hb T, h, Tr.canon_prepare hb T',
    Tr.computeRob_canon]

namespace Tr

theorem forgetB_computeRob {b : Bool} {env : Env} (T : Tr) :
    ∀ {T' : Tr} {r : ℚ}, computeRob env T = .ok (T', r) → forgetB b T' = forgetB b T := by
  induction T with
  | const s p v td =>
    intro T' r h
    simp only [computeRob, bind_eq_ok, Except.ok.injEq, Prod.mk.injEq] at h
    obtain ⟨a, h1, h2, h3⟩ := h
    subst h2
    simp only [forgetB, const.injEq, true_and, and_true]
    by_cases hp : p = "" <;> simp [hp, constValue]
  | sig s v m td =>
    intro T' r h
    simp only [computeRob, bind_eq_ok, Except.ok.injEq, Prod.mk.injEq] at h
    obtain ⟨a, h1, h2, h3⟩ := h
    subst h2
    rfl
  | abs s c ih =>
    intro T' r h
    simp only [computeRob, bind_eq_ok, Except.ok.injEq, Prod.mk.injEq, Prod.exists] at h
    obtain ⟨c', _, h1, _, _, _, _, h2, _⟩ := h
    subst h2
    simp [forgetB, ih h1]
  | not s c ih =>
    intro T' r h
    simp only [computeRob, bind_eq_ok, Except.ok.injEq, Prod.mk.injEq, Prod.exists] at h
    obtain ⟨c', _, h1, _, _, h2, _⟩ := h
    subst h2
    simp [forgetB, ih h1]
  | ev s I c ih =>
    intro T' r h
    simp only [computeRob, bind_eq_ok, Except.ok.injEq, Prod.mk.injEq, Prod.exists] at h
    obtain ⟨c', _, h1, _, _, _, _, _, h2, _⟩ := h
    subst h2
    simp [forgetB, ih h1, forgetB_setZ]
  | alw s I c ih =>
    intro T' r h
    simp only [computeRob, bind_eq_ok, Except.ok.injEq, Prod.mk.injEq, Prod.exists] at h
    obtain ⟨c', _, h1, _, _, _, _, h2, _⟩ := h
    subst h2
    simp [forgetB, ih h1]
  | untl s l I r ihl ihr =>
    intro T' r' h
    simp only [computeRob, bind_eq_ok, Except.ok.injEq, Prod.mk.injEq, Prod.exists] at h
    obtain ⟨c', _, h1, c'', _, h2, _, _, _, _, h3, _⟩ := h
    subst h3
    simp [forgetB, ihl h1, ihr h2]
  | atom s k l r ihl ihr =>
    intro T' r' h
    simp only [computeRob, bind_eq_ok, Except.ok.injEq, Prod.mk.injEq, Prod.exists] at h
    obtain ⟨c', _, h1, c'', _, h2, _, _, _, _, h3, _⟩ := h
    subst h3
    simp [forgetB, ihl h1, ihr h2]
  | _ s l r ihl ihr =>
    intro T' r' h
    simp only [computeRob, bind_eq_ok, Except.ok.injEq, Prod.mk.injEq, Prod.exists] at h
    obtain ⟨c', _, h1, c'', _, h2, _, _, _, _, h3, _⟩ := h
    subst h3
    simp [forgetB, ihl h1, ihr h2]

/-- `T'` is `T` as written, for both bound computations. -/
def KeepsLU (b : Bool) (env : Env) (T : Tr) : Prop :=
  (∀ T' r, computeLow env T = .ok (T', r) → forgetB b T' = forgetB b T) ∧
  (∀ T' r, computeUp env T = .ok (T', r) → forgetB b T' = forgetB b T)

theorem forgetB_bounds {b : Bool} {env : Env} (T : Tr) : KeepsLU b env T := by
  induction T with
  | and s l r ihl ihr =>
    constructor <;> intro T' v h
    · simp only [computeLow, bind_eq_ok, Except.ok.injEq, Prod.mk.injEq, Prod.exists] at h
      obtain ⟨c', _, h1, c'', _, h2, _, _, _, _, h3, _⟩ := h
      subst h3
      simp [forgetB, ihl.1 _ _ h1, ihr.1 _ _ h2]
    · simp only [computeUp, bind_eq_ok, Except.ok.injEq, Prod.mk.injEq, Prod.exists] at h
      obtain ⟨c', _, h1, c'', _, h2, _, _, _, _, h3, _⟩ := h
      subst h3
      simp [forgetB, ihl.2 _ _ h1, ihr.2 _ _ h2]
  | or s l r ihl ihr =>
    constructor <;> intro T' v h
    · simp only [computeLow, bind_eq_ok, Except.ok.injEq, Prod.mk.injEq, Prod.exists] at h
      obtain ⟨c', _, h1, c'', _, h2, _, _, _, _, h3, _⟩ := h
      subst h3
      simp [forgetB, ihl.1 _ _ h1, ihr.1 _ _ h2]
    · simp only [computeUp, bind_eq_ok, Except.ok.injEq, Prod.mk.injEq, Prod.exists] at h
      obtain ⟨c', _, h1, c'', _, h2, _, _, _, _, h3, _⟩ := h
      subst h3
      simp [forgetB, ihl.2 _ _ h1, ihr.2 _ _ h2]
  | implies s l r ihl ihr =>
    constructor <;> intro T' v h
    · simp only [computeLow, bind_eq_ok, Except.ok.injEq, Prod.mk.injEq, Prod.exists] at h
      obtain ⟨c', _, h1, c'', _, h2, _, _, _, _, h3, _⟩ := h
      subst h3
      simp [forgetB, ihl.2 _ _ h1, ihr.1 _ _ h2]
    · simp only [computeUp, bind_eq_ok, Except.ok.injEq, Prod.mk.injEq, Prod.exists] at h
      obtain ⟨c', _, h1, c'', _, h2, _, _, _, _, h3, _⟩ := h
      subst h3
      simp [forgetB, ihl.1 _ _ h1, ihr.2 _ _ h2]
  | not s c ih =>
    constructor <;> intro T' v h
    · simp only [computeLow, bind_eq_ok, Prod.exists] at h
      obtain ⟨c', _, h1, h⟩ := h
      split_ifs at h
      all_goals
        simp only [bind_eq_ok, Except.ok.injEq, Prod.mk.injEq] at h
        obtain ⟨_, _, h3, _⟩ := h
        subst h3
        simp [forgetB, ih.2 _ _ h1]
    · simp only [computeUp, bind_eq_ok, Prod.exists] at h
      obtain ⟨c', _, h1, h⟩ := h
      split_ifs at h
      all_goals
        simp only [bind_eq_ok, Except.ok.injEq, Prod.mk.injEq] at h
        obtain ⟨_, _, h3, _⟩ := h
        subst h3
        simp [forgetB, ih.1 _ _ h1]
  | ev s I c ih =>
    constructor <;> intro T' v h
    · simp only [computeLow, bind_eq_ok, Except.ok.injEq, Prod.mk.injEq, Prod.exists] at h
      obtain ⟨c', _, h1, _, _, _, h3, _⟩ := h
      subst h3
      simp [forgetB, ih.1 _ _ h1]
    · simp only [computeUp, bind_eq_ok, Except.ok.injEq, Prod.mk.injEq, Prod.exists] at h
      obtain ⟨c', _, h1, _, _, _, h3, _⟩ := h
      subst h3
      simp [forgetB, ih.2 _ _ h1]
  | alw s I c ih =>
    constructor <;> intro T' v h
    · simp only [computeLow, bind_eq_ok, Except.ok.injEq, Prod.mk.injEq, Prod.exists] at h
      obtain ⟨c', _, h1, _, _, _, h3, _⟩ := h
      subst h3
      simp [forgetB, ih.1 _ _ h1]
    · simp only [computeUp, bind_eq_ok, Except.ok.injEq, Prod.mk.injEq, Prod.exists] at h
      obtain ⟨c', _, h1, _, _, _, h3, _⟩ := h
      subst h3
      simp [forgetB, ih.2 _ _ h1]
  | untl s l I r ihl ihr =>
    constructor <;> intro T' v h
    · simp only [computeLow, bind_eq_ok, Prod.exists] at h
      obtain ⟨c', _, h1, h⟩ := h
      split_ifs at h
      · simp only [Except.ok.injEq, Prod.mk.injEq] at h
        obtain ⟨h3, _⟩ := h
        subst h3
        simp [forgetB, ihl.1 _ _ h1]
      · simp only [bind_eq_ok, Prod.exists] at h
        obtain ⟨c'', _, h2, h⟩ := h
        split_ifs at h
        · simp only [Except.ok.injEq, Prod.mk.injEq] at h
          obtain ⟨h3, _⟩ := h
          subst h3
          simp [forgetB, ihl.1 _ _ h1, ihr.1 _ _ h2]
        · simp only [bind_eq_ok, Except.ok.injEq, Prod.mk.injEq, Prod.exists] at h
          obtain ⟨_, _, _, h3, _⟩ := h
          subst h3
          simp [forgetB, ihl.1 _ _ h1, ihr.1 _ _ h2]
    · simp only [computeUp, bind_eq_ok, Prod.exists] at h
      obtain ⟨c', _, h1, h⟩ := h
      split_ifs at h
      · simp only [Except.ok.injEq, Prod.mk.injEq] at h
        obtain ⟨h3, _⟩ := h
        subst h3
        simp [forgetB, ihl.2 _ _ h1]
      · simp only [bind_eq_ok, Prod.exists] at h
        obtain ⟨c'', _, h2, h⟩ := h
        split_ifs at h
        · simp only [Except.ok.injEq, Prod.mk.injEq] at h
          obtain ⟨h3, _⟩ := h
          subst h3
          simp [forgetB, ihl.2 _ _ h1, ihr.2 _ _ h2]
        · simp only [bind_eq_ok, Except.ok.injEq, Prod.mk.injEq, Prod.exists] at h
          obtain ⟨_, _, _, h3, _⟩ := h
          subst h3
          simp [forgetB, ihl.2 _ _ h1, ihr.2 _ _ h2]
  | _ =>
    constructor <;> intro T' v h
    · simp only [computeLow, bind_eq_ok, Except.ok.injEq, Prod.mk.injEq, Prod.exists] at h
      obtain ⟨c', _, h1, _, _, _, _, h3, _⟩ := h
      subst h3
      rw [forgetB_setSt, forgetB_computeRob _ h1]
    · simp only [computeUp, bind_eq_ok, Except.ok.injEq, Prod.mk.injEq, Prod.exists] at h
      obtain ⟨c', _, h1, _, _, _, _, h3, _⟩ := h
      subst h3
      rw [forgetB_setSt, forgetB_computeRob _ h1]

end Tr

theorem forgetB_run3 {b : Bool} {env : Env} {T T' : Tr} {r : ℚ × ℚ × ℚ}
    (h : Monitor.run3 env T = .ok (T', r)) : T'.forgetB b = T.forgetB b := by
  simp only [Monitor.run3, bind_eq_ok, Except.ok.injEq, Prod.mk.injEq, Prod.exists] at h
  obtain ⟨T1, _, h1, T2, _, h2, T3, _, h3, h4, _⟩ := h
  subst h4
  rw [(Tr.forgetB_bounds _).2 _ _ h3, (Tr.forgetB_bounds _).1 _ _ h2, Tr.forgetB_computeRob _ h1]

/-! ## Monitors -/

/-- A parameter with the empty name exists. -/
def emptyKey (P : Assoc ℚ) : Bool := (P.lookup "").isSome

/-- Same inputs, up to what a next evaluation overwrites. -/
structure Sim (m m' : Monitor) : Prop where
  data : m.data = m'.data
  params : m.params = m'.params
  smap : m.smap = m'.smap
  start : m.start = m'.start
  stop : m.stop = m'.stop
  sem : m.sem = m'.sem
  ip : m.ip = m'.ip
  formula : (m.formula = none ∧ m'.formula = none ∧ m.rob = m'.rob ∧ m.lowerRob = m'.lowerRob ∧
      m.upperRob = m'.upperRob) ∨
    ∃ T T', m.formula = some T ∧ m'.formula = some T' ∧
      T.forgetB (emptyKey m.params) = T'.forgetB (emptyKey m.params)

theorem Sim.refl (m : Monitor) : Sim m m := by
  refine ⟨rfl, rfl, rfl, rfl, rfl, rfl, rfl, ?_⟩
  cases h : m.formula with
  | none => exact Or.inl ⟨rfl, rfl, rfl, rfl, rfl⟩
  | some T => exact Or.inr ⟨T, T, rfl, rfl, rfl⟩

theorem Sim.symm {m m' : Monitor} (h : Sim m m') : Sim m' m := by
  refine ⟨h.data.symm, h.params.symm, h.smap.symm, h.start.symm, h.stop.symm, h.sem.symm,
    h.ip.symm, ?_⟩
  rw [← h.params]
  rcases h.formula with ⟨h1, h2, h3, h4, h5⟩ | ⟨T, T', h1, h2, h3⟩
  · exact Or.inl ⟨h2, h1, h3.symm, h4.symm, h5.symm⟩
  · exact Or.inr ⟨T', T, h2, h1, h3.symm⟩

theorem Sim.trans {m m' m'' : Monitor} (h : Sim m m') (h' : Sim m' m'') : Sim m m'' := by
  refine ⟨h.data.trans h'.data, h.params.trans h'.params, h.smap.trans h'.smap,
    h.start.trans h'.start, h.stop.trans h'.stop, h.sem.trans h'.sem, h.ip.trans h'.ip, ?_⟩
  have hp := h.params
  rcases h.formula with ⟨h1, h2, h3, h4, h5⟩ | ⟨T, T', h1, h2, h3⟩ <;>
  rcases h'.formula with ⟨k1, k2, k3, k4, k5⟩ | ⟨U, U', k1, k2, k3⟩
  · exact Or.inl ⟨h1, k2, h3.trans k3, h4.trans k4, h5.trans k5⟩
  · rw [h2] at k1; simp at k1
  · rw [h2] at k1; simp at k1
  · rw [h2] at k1
    obtain rfl := Option.some.inj k1
    exact Or.inr ⟨T, U', h1, k2, by rw [h3, hp, k3]⟩

/-- Evaluating does not change a monitor's inputs. -/
theorem evalRob_sim (g : Globals) (m : Monitor) (s e : ℚ) : Sim (m.evalRob g s e).2.1 m := by
  unfold Monitor.evalRob
  cases hf : m.formula with
  | none => exact Sim.refl m
  | some T =>
    have hp := Tr.forgetB_prepare (b := emptyKey m.params) (P := m.params) (fun h => h) s e T
    simp only
    cases hr : Monitor.run3 ⟨g.B, m.sem, m.ip, m.data, m.params⟩
        (Monitor.prepare m.params s e T) with
    | error f => exact ⟨rfl, rfl, rfl, rfl, rfl, rfl, rfl, Or.inr ⟨_, _, rfl, hf, hp⟩⟩
    | ok a =>
      obtain ⟨T', r⟩ := a
      exact ⟨rfl, rfl, rfl, rfl, rfl, rfl, rfl,
        Or.inr ⟨_, _, rfl, hf, (forgetB_run3 hr).trans hp⟩⟩

theorem evalRob_B (g : Globals) (m : Monitor) (s e : ℚ) : (m.evalRob g s e).1.B = g.B := by
  unfold Monitor.evalRob
  cases m.formula with
  | none => rfl
  | some T =>
    simp only
    cases Monitor.run3 ⟨g.B, m.sem, m.ip, m.data, m.params⟩
        (Monitor.prepare m.params s e T) <;> rfl

/-- Monitors with the same inputs give the same report. -/
theorem evalRob_congr {g g' : Globals} (hg : g.B = g'.B) {m m' : Monitor} (h : Sim m m')
    (s e : ℚ) :
    (m.evalRob g s e).2.1.observe (m.evalRob g s e).2.2 =
      (m'.evalRob g' s e).2.1.observe (m'.evalRob g' s e).2.2 := by
  rcases h.formula with ⟨h1, h2, h3, h4, h5⟩ | ⟨T, T', h1, h2, h3⟩
  · simp [Monitor.evalRob, h1, h2, Monitor.observe, h3, h4, h5, Monitor.getSignal]
  · have hr := run3_congr (env := ⟨g.B, m.sem, m.ip, m.data, m.params⟩) (fun h => h) h3 s e
    simp only at hr
    unfold Monitor.evalRob
    simp only [h1, h2]
    rw [← hg, ← h.sem, ← h.ip, ← h.data, ← h.params, ← hr]
    cases Monitor.run3 ⟨g.B, m.sem, m.ip, m.data, m.params⟩
        (Monitor.prepare m.params s e T) with
    | error f => rfl
    | ok a => rfl

theorem Assoc.lookup_set {α : Type} (m : Assoc α) (k k' : String) (v : α) :
    (m.set k v).lookup k' = if k' = k then some v else m.lookup k' := by
  induction m with
  | nil =>
    by_cases h : k' = k
    · simp [Assoc.set, h]
    · have h' : (k' == k) = false := by simpa using h
      simp [Assoc.set, List.lookup, h, h']
  | cons a m ih =>
    obtain ⟨k1, v1⟩ := a
    simp only [Assoc.set]
    by_cases h1 : k1 = k
    · rw [if_pos h1]
      by_cases h : k' = k
      · simp [List.lookup, h]
      · have h2 : (k' == k1) = false := by simpa [h1] using h
        have h3 : (k' == k) = false := by simpa using h
        simp only [List.lookup, if_neg h, h2, h3]
    · rw [if_neg h1]
      by_cases h2 : k' = k1
      · have : k' ≠ k := fun h => h1 (h2 ▸ h)
        subst h2
        simp [List.lookup, this]
      · have : (k' == k1) = false := by simpa using h2
        simp [List.lookup, this, ih]

theorem emptyKey_set {P : Assoc ℚ} {n : String} {x v : ℚ} (h : P.lookup n = some v) :
    emptyKey (P.set n x) = emptyKey P := by
  unfold emptyKey
  rw [Assoc.lookup_set]
  split_ifs with h1
  · rw [h1, h]; rfl
  · rfl

theorem step_B (g : Globals) (m : Monitor) (op : MonOp) : (m.step g op).1.B = g.B := by
  cases op <;> first | rfl | exact evalRob_B _ _ _ _

/-- One call on monitors with the same inputs: same reply, same inputs again. -/
theorem step_sim {g g' : Globals} (hg : g.B = g'.B) {m m' : Monitor} (h : Sim m m')
    (op : MonOp) :
    (m.step g op).2.2 = (m'.step g' op).2.2 ∧ Sim (m.step g op).2.1 (m'.step g' op).2.1 := by
  have hev : ∀ s e, Sim (m.evalRob g s e).2.1 (m'.evalRob g' s e).2.1 := fun s e =>
    ((evalRob_sim g m s e).trans h).trans (evalRob_sim g' m' s e).symm
  cases op with
  | addSample row =>
    simp only [Monitor.step, Monitor.addSample, ← h.data, ← h.smap]
    cases Monitor.pushRow m.data m.smap.length row with
    | error f => exact ⟨rfl, h⟩
    | ok d => exact ⟨rfl, ⟨rfl, h.params, rfl, h.start, h.stop, h.sem, h.ip, h.formula⟩⟩
  | setParam n x =>
    simp only [Monitor.step, Monitor.setParam, ← h.params]
    cases hl : m.params.lookup n with
    | none => exact ⟨rfl, h⟩
    | some prev =>
      by_cases hx : x ≠ prev
      · simp only [if_pos hx]
        refine ⟨rfl, ⟨h.data, rfl, h.smap, h.start, h.stop, h.sem, h.ip, ?_⟩⟩
        have := h.formula
        simp only [tryCall]
        rwa [emptyKey_set hl]
      · simp only [if_neg hx]
        exact ⟨rfl, h⟩
  | setSemantics s =>
    simp only [Monitor.step, Monitor.setSemantics]
    cases Monitor.parseSemantics s with
    | error f => exact ⟨rfl, h⟩
    | ok d => exact ⟨rfl, ⟨h.data, h.params, h.smap, h.start, h.stop, rfl, h.ip, h.formula⟩⟩
  | setInterpol s =>
    simp only [Monitor.step, Monitor.setInterpol]
    cases Monitor.parseInterpol s with
    | error f => exact ⟨rfl, h⟩
    | ok d => exact ⟨rfl, ⟨h.data, h.params, h.smap, h.start, h.stop, h.sem, rfl, h.formula⟩⟩
  | setEvalTime s e =>
    exact ⟨rfl, ⟨h.data, h.params, h.smap, rfl, rfl, h.sem, h.ip, h.formula⟩⟩
  | resetData => exact ⟨rfl, ⟨rfl, h.params, h.smap, h.start, h.stop, h.sem, h.ip, h.formula⟩⟩
  | eval0 =>
    have := evalRob_congr hg h m.start m.stop
    have h2 := hev m.start m.stop
    simp only [Monitor.step, Monitor.evalRob0, ← h.start, ← h.stop]
    exact ⟨this, h2⟩
  | eval1 t => exact ⟨evalRob_congr hg h t t, hev t t⟩
  | eval2 s e => exact ⟨evalRob_congr hg h s e, hev s e⟩
  | getParam n =>
    refine ⟨?_, h⟩
    simp only [Monitor.step, Monitor.getParam, h.params]
  | getSemantics => exact ⟨by simp only [Monitor.step, Monitor.getSemantics, h.sem], h⟩
  | getInterpol => exact ⟨by simp only [Monitor.step, Monitor.getInterpol, h.ip], h⟩

theorem run_sim {g g' : Globals} (hg : g.B = g'.B) {m m' : Monitor} (h : Sim m m')
    (ops : List MonOp) :
    (m.run g ops).2.2 = (m'.run g' ops).2.2 ∧ Sim (m.run g ops).2.1 (m'.run g' ops).2.1 := by
  induction ops generalizing g g' m m' with
  | nil => exact ⟨rfl, h⟩
  | cons op ops ih =>
    obtain ⟨h1, h2⟩ := step_sim hg h op
    have hB : (m.step g op).1.B = (m'.step g' op).1.B := by rw [step_B, step_B, hg]
    obtain ⟨h3, h4⟩ := ih hB h2
    exact ⟨by simp only [Monitor.run]; rw [h1, h3], h4⟩

theorem run_B (g : Globals) (m : Monitor) (ops : List MonOp) : (m.run g ops).1.B = g.B := by
  induction ops generalizing g m with
  | nil => rfl
  | cons op ops ih => exact (ih _ _).trans (step_B g m op)

theorem step_eval_sim (g : Globals) (m : Monitor) (op : MonOp) (h : isEval op = true) :
    Sim (m.step g op).2.1 m := by
  cases op <;> first | exact evalRob_sim _ _ _ _ | simp [isEval] at h

/-- Leaving out the evaluations of a history. -/
theorem run_filter (g : Globals) (m m' : Monitor) (h : Sim m m') (ops : List MonOp) :
    Sim (m.run g ops).2.1 (m'.run g (ops.filter fun op => !isEval op)).2.1 := by
  induction ops generalizing g m m' with
  | nil => exact h
  | cons op ops ih =>
    cases he : isEval op with
    | true =>
      rw [List.filter_cons_of_neg (by simp [he])]
      have h1 := (step_eval_sim g m op he).trans h
      have := ih (m.step g op).1 _ _ h1
      refine this.trans ?_
      exact (run_sim (step_B g m op) (Sim.refl m') _).2
    | false =>
      rw [List.filter_cons_of_pos (by simp [he])]
      have h1 := (step_sim (g := g) (g' := g) rfl h op).2
      have := ih (m.step g op).1 _ _ h1
      refine this.trans ?_
      exact (run_sim ((step_B g m op).trans (step_B g m' op).symm) (Sim.refl _) _).2

end STLRom
