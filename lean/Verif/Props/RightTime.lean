import Verif.Props.LeftTotal

/-!
# Property C17 in the time semantics: evaluations that are undefined behaviour
-/

namespace STLRom
namespace Props
open Signal Spec

/-- The right time robustness of an increasing signal is undefined behaviour or empty. -/
theorem rightTimeRob_cases {y : Signal} (hy : Incr y) :
    computeRightTimeRob y = .error .ub ∨ computeRightTimeRob y = .ok ⟨[], y.beginTime, y.endTime⟩ := by
  obtain ⟨p, l, hl⟩ := List.exists_cons_of_ne_nil hy.ne
  have hp := hy.head p (by rw [hl]; rfl)
  obtain ⟨r, hr⟩ := boolList_cons y.endTime p l
  rw [← hl] at hr
  obtain ⟨b1, _⟩ := boolList_steps y.endTime hy.inc
  rw [hr] at b1
  obtain ⟨c, d, _, h2⟩ := computeBoolean_steps b1 hr hp
  rw [computeRightTimeRob, h2]
  simp only [bind, Except.bind]
  generalize (if c.time = y.endTime then d else _) = L
  cases L with
  | nil => exact Or.inr rfl
  | cons a L => exact Or.inl rfl

theorem rob_right {env : Env} {n : ℕ} (hD : WellShaped n env.data) (hsem : env.sem = .RIGHT_TIME)
    (hne : env.data ≠ []) (T : Tr) : ∀ {S E : ℚ} {P : Assoc ℚ}, 0 ≤ E → AnyFormula n P T → Fresh P S E T →
    Tr.computeRob env T = .error .ub := by
  induction T with
  | atom s k l r =>
    intro S E P hE hF hf
    obtain ⟨l', v1, a1, a2⟩ := expr_any hD hne hE l hF.1 (Or.inl hf.2.1)
    obtain ⟨r', v2, b1, b2⟩ := expr_any hD hne hE r hF.2 (Or.inl hf.2.2)
    have a3 := a2.st hD hne hE
    have b3 := b2.st hD hne hE
    have tt : times (comb (atomS k) l'.st.z.samples r'.st.z.samples) = leafTimes env.data S E := by
      rw [comb_times (atomS_time k) (a3.t.trans b3.t.symm), a3.t]
    obtain ⟨z, c1, c2⟩ := op_any hD hne hE env.ip tt
    have hd := c2.hd hD hne hE
    have hz : Incr { z with endTime := l'.st.z.endTime } := by
      refine ⟨hd.ne, fun p hp => ?_, sinc_of_times (by rw [c2.t]; exact (leafTimes_grid hD.inc hne hE).inc)⟩
      obtain ⟨q, r, h1, h2⟩ := hd
      simp only [h1, List.head?_cons, Option.some.injEq] at hp
      rw [← hp]; exact h2
    have hw : Tr.atomRob env k s.z l'.st.z r'.st.z = computeRightTimeRob { z with endTime := l'.st.z.endTime } := by
      unfold Tr.atomRob
      rw [atomLoop_eq, hf.1.2.2.1, c1, hsem]
      rfl
    rcases rightTimeRob_cases hz with h | h
    · simp only [Tr.computeRob, a1, b1, bind, Except.bind, hw, h]
    · simp only [Tr.computeRob, a1, b1, bind, Except.bind, hw, h]
      rfl
  | not s c ih =>
    intro S E P hE hF hf
    simp only [Tr.computeRob, ih hE hF hf.2, bind, Except.bind]
  | and s l r ih1 ih2 | or s l r ih1 ih2 | implies s l r ih1 ih2 =>
    intro S E P hE hF hf
    simp only [Tr.computeRob, ih1 hE hF.1 hf.2.1, bind, Except.bind]
  | ev s I c ih | alw s I c ih =>
    intro S E P hE hF hf
    simp only [Tr.computeRob, ih (by linarith [hF.1, hF.2.1]) hF.2.2 hf.2, bind, Except.bind]
  | untl s l I r ih1 ih2 =>
    intro S E P hE hF hf
    simp only [Tr.computeRob, ih1 (by linarith [hF.1, hF.2.1]) hF.2.2.1 hf.2.1, bind, Except.bind]
  | _ => intro _ _ _ _ hF; exact hF.elim

theorem anyFormula_prepare {n : ℕ} {P Q : Assoc ℚ} : ∀ (T : Tr) (s e : ℚ), AnyFormula n Q T →
    AnyFormula n Q (Monitor.prepare P s e T) := by
  have hex := @isExpr_prepare n P
  unfold Monitor.prepare at hex ⊢
  intro T
  induction T with
  | atom => exact fun s e h => ⟨hex _ s e h.1, hex _ s e h.2⟩
  | not _ c ih => exact fun s e h => ih s e h
  | ev _ _ c ih | alw _ _ c ih => exact fun s e h => ⟨h.1, h.2.1, ih _ _ h.2.2⟩
  | and _ l r h1 h2 | or _ l r h1 h2 | implies _ l r h1 h2 => exact fun s e h => ⟨h1 s e h.1, h2 s e h.2⟩
  | untl _ l _ r h1 h2 => exact fun s e h => ⟨h.1, h.2.1, h1 _ _ h.2.2.1, h2 _ _ h.2.2.2⟩
  | _ => exact fun _ _ h => h.elim

/-- C17 fails throughout in the RIGHT_TIME semantics: for every formula, `until` included, any rows, any interpolation
and any time interval that ends at 0 or later, the evaluation is undefined behaviour. -/
theorem C17_right_false (g : Globals) (m : Monitor) (n : ℕ) (T : Tr) (s e : ℚ) (hm : m.formula = some T)
    (hs : m.sem = .RIGHT_TIME) (hF : AnyFormula n m.params T) (hD : WellShaped n m.data) (hne : m.data ≠ [])
    (he : 0 ≤ e) : (m.evalRob g s e).2.2 = .error .ub := by
  have hx := rob_right (env := m.envOf g) hD hs hne _ he (anyFormula_prepare (P := m.params) T s e hF)
    (fresh_prepare m.params T s e)
  unfold Monitor.evalRob
  rw [hm]
  unfold Monitor.envOf at hx
  simp only [Monitor.run3, hx, bind, Except.bind]

theorem rob_left_ub {env : Env} {n : ℕ} (hD : WellShaped n env.data) (hsem : env.sem = .LEFT_TIME)
    (hne : env.data ≠ []) (T : Tr) : ∀ {S E : ℚ} {P : Assoc ℚ}, 0 ≤ E → AnyFormula n P T → FirstNoSpan env.data P S E T →
    Fresh P S E T → Tr.computeRob env T = .error .ub := by
  induction T with
  | atom s k l r =>
    intro S E P hE hF hw hf
    refine atom_lft_ub hD hsem hne hE hF hf (hw.imp_right fun h row hr => h row hr _ ?_)
    have := hD.1 row hr
    cases row with
    | nil => simp at this
    | cons t row => rfl
  | not s c ih =>
    intro S E P hE hF hw hf
    simp only [Tr.computeRob, ih hE hF hw hf.2, bind, Except.bind]
  | and s l r ih1 ih2 | or s l r ih1 ih2 | implies s l r ih1 ih2 =>
    intro S E P hE hF hw hf
    simp only [Tr.computeRob, ih1 hE hF.1 hw hf.2.1, bind, Except.bind]
  | ev s I c ih | alw s I c ih =>
    intro S E P hE hF hw hf
    simp only [Tr.computeRob, ih (by linarith [hF.1, hF.2.1]) hF.2.2 hw hf.2, bind, Except.bind]
  | untl s l I r ih1 ih2 =>
    intro S E P hE hF hw hf
    simp only [Tr.computeRob, ih1 (by linarith [hF.1, hF.2.1]) hF.2.2.1 hw hf.2.1, bind, Except.bind]
  | _ => intro _ _ _ _ hF; exact hF.elim

theorem firstNoSpan_prepare {D : List (List ℚ)} {P Q : Assoc ℚ} : ∀ (T : Tr) (s e : ℚ) {s' e' : ℚ},
    FirstNoSpan D Q s' e' T → FirstNoSpan D Q s' e' (Monitor.prepare P s e T) := by
  unfold Monitor.prepare
  intro T
  induction T with
  | atom => exact fun _ _ _ _ h => h
  | not _ c ih | ev _ _ c ih | alw _ _ c ih => exact fun s e _ _ h => ih _ _ h
  | and _ l r h1 h2 | or _ l r h1 h2 | implies _ l r h1 h2 => exact fun s e _ _ h => h1 s e h
  | untl _ l _ r h1 h2 => exact fun s e _ _ h => h1 _ _ h
  | _ => exact fun _ _ _ _ h => h.elim

/-- C17 fails in the LEFT_TIME semantics for every formula, `until` included, whose first comparison is evaluated at
a single time or after the last row.  In particular `eval_rob(t)` is undefined behaviour for every formula without
temporal operators, and for every formula when `t` is not before the last row. -/
theorem C17_left_first_false (g : Globals) (m : Monitor) (n : ℕ) (T : Tr) (s e : ℚ) (hm : m.formula = some T)
    (hs : m.sem = .LEFT_TIME) (hF : AnyFormula n m.params T) (hD : WellShaped n m.data) (hne : m.data ≠ [])
    (he : 0 ≤ e) (hw : FirstNoSpan m.data m.params s e T) : (m.evalRob g s e).2.2 = .error .ub := by
  have hx := rob_left_ub (env := m.envOf g) hD hs hne _ he (anyFormula_prepare (P := m.params) T s e hF)
    (firstNoSpan_prepare T s e hw) (fresh_prepare m.params T s e)
  unfold Monitor.evalRob
  rw [hm]
  unfold Monitor.envOf at hx
  simp only [Monitor.run3, hx, bind, Except.bind]

theorem firstNoSpan_late {n : ℕ} {D : List (List ℚ)} {P : Assoc ℚ} : ∀ (T : Tr) (s e : ℚ), AnyFormula n P T →
    (∀ row ∈ D, ∀ t, row.head? = some t → t ≤ s) → FirstNoSpan D P s e T := by
  intro T
  induction T with
  | atom => exact fun s e _ h => Or.inr h
  | not _ c ih => exact fun s e hF h => ih s e hF h
  | ev _ _ c ih | alw _ _ c ih =>
    exact fun s e hF h => ih _ _ hF.2.2 fun row hr t ht => (h row hr t ht).trans (by linarith [hF.1])
  | and _ l r h1 h2 | or _ l r h1 h2 | implies _ l r h1 h2 => exact fun s e hF h => h1 s e hF.1 h
  | untl _ l _ r h1 h2 => exact fun s e hF h => h1 _ _ hF.2.2.1 h
  | _ => exact fun _ _ hF => hF.elim

/-- In the LEFT_TIME semantics every evaluation that begins at or after the last row is undefined behaviour. -/
theorem C17_left_late_false (g : Globals) (m : Monitor) (n : ℕ) (T : Tr) (s e : ℚ) (hm : m.formula = some T)
    (hs : m.sem = .LEFT_TIME) (hF : AnyFormula n m.params T) (hD : WellShaped n m.data) (hne : m.data ≠ [])
    (he : 0 ≤ e) (hl : ∀ row ∈ m.data, ∀ t, row.head? = some t → t ≤ s) : (m.evalRob g s e).2.2 = .error .ub :=
  C17_left_first_false g m n T s e hm hs hF hD hne he (firstNoSpan_late T s e hF hl)

/-- `not (x > 0) or ev_[0,1] x > 0` over `crossXD`, at 1. -/
example : ((leftM (.or .init (.not .init (above sx 0)) (evT 0 1 (above sx 0))) crossXD).evalRob1 .init 1).2.2 =
    .error .ub :=
  C17_left_first_false .init (leftM _ crossXD) 2 _ 1 1 rfl rfl
    ⟨⟨⟨1, rfl, by decide, by decide⟩, trivial⟩, by decide +kernel, by decide +kernel, ⟨1, rfl, by decide, by decide⟩,
      trivial⟩ crossXD_rows (by decide) (by norm_num) (Or.inl le_rfl)

/-- `x > 0 until_[0,2] x > 0` over `crossXD`, at the time 4 of the last row. -/
example : ((leftM untF crossXD).evalRob1 .init 4).2.2 = .error .ub :=
  C17_left_late_false .init (leftM untF crossXD) 2 untF 4 4 rfl rfl
    ⟨by decide +kernel, by decide +kernel, ⟨⟨1, rfl, by decide, by decide⟩, trivial⟩,
      ⟨1, rfl, by decide, by decide⟩, trivial⟩ crossXD_rows (by decide) (by norm_num) (by
      intro row hr t ht
      simp only [leftM, mon, crossXD, List.mem_cons, List.not_mem_nil, or_false] at hr
      rcases hr with rfl | rfl | rfl <;> simp only [List.head?_cons, Option.some.injEq] at ht <;>
        rw [← ht] <;> norm_num)

/-- `not (x > 0 until_[0,2] x > 0)` over `crossXD`, from 0 to 1. -/
example : (({ mon .LINEAR (.not .init untF) crossXD with sem := .RIGHT_TIME }).evalRob .init 0 1).2.2 = .error .ub :=
  C17_right_false .init { mon .LINEAR (.not .init untF) crossXD with sem := .RIGHT_TIME } 2 (.not .init untF) 0 1 rfl rfl
    ⟨by decide +kernel, by decide +kernel, ⟨⟨1, rfl, by decide, by decide⟩, trivial⟩,
      ⟨1, rfl, by decide, by decide⟩, trivial⟩ crossXD_rows (by decide) (by norm_num)

end Props
end STLRom
