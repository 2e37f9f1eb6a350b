import Verif.Proofs.RunsBounds
import Verif.Proofs.UntilLin
import Verif.Proofs.UntilNest

/-!
# Whole evaluations of formulas with until on covering data
-/

namespace STLRom
open Signal Spec

theorem Spec.IsUntilFormula.stl {n : ℕ} {P : Assoc ℚ} : ∀ {T : Tr}, IsUntilFormula n P T → IsStl T := by
  intro T
  induction T with
  | atom => exact fun h => ⟨h.1.term, h.2.term⟩
  | not _ c ih => exact fun h => ih h
  | ev _ _ c ih | alw _ _ c ih => exact fun h => ih h.2.2
  | and _ l r h1 h2 | or _ l r h1 h2 | implies _ l r h1 h2 => exact fun h => ⟨h1 h.1, h2 h.2⟩
  | untl _ l _ r h1 h2 => exact fun h => ⟨h1 h.2.2.1, h2 h.2.2.2⟩
  | _ => exact fun h => h.elim

theorem atomsReach_forget (D : List (List ℚ)) (P : Assoc ℚ) :
    ∀ (T : Tr) (s e : ℚ), AtomsReach D P s e (T.forgetB false) ↔ AtomsReach D P s e T := by
  intro T
  induction T <;> intro s e <;> simp_all [Tr.forgetB, AtomsReach, isLeaf_forget]

theorem untilPlain_forget (n : ℕ) (P : Assoc ℚ) :
    ∀ T : Tr, UntilPlain n P (T.forgetB false) ↔ UntilPlain n P T := by
  intro T
  induction T <;> simp_all [Tr.forgetB, UntilPlain, isFormula_forget]

theorem isUntil_forget : ∀ T : Tr, IsUntil (T.forgetB false) ↔ IsUntil T := by
  intro T
  cases T <;> simp [Tr.forgetB, IsUntil]

theorem untilsApart_forget : ∀ T : Tr, UntilsApart (T.forgetB false) ↔ UntilsApart T := by
  intro T
  induction T <;> simp_all [Tr.forgetB, UntilsApart, isUntil_forget]

theorem operandsInside_forget (ip : Interpol) (B : ℚ) (D : List (List ℚ)) (P : Assoc ℚ) (s : ℚ) :
    ∀ T : Tr, OperandsInside ip B D P s (T.forgetB false) ↔ OperandsInside ip B D P s T := by
  intro T
  cases T <;> simp [Tr.forgetB, OperandsInside, isComparison_forget, rob_forget]

theorem boolInside_forget (ip : Interpol) (B : ℚ) (D : List (List ℚ)) (P : Assoc ℚ) :
    ∀ (T : Tr) (s : ℚ), BoolInside ip B D P s (T.forgetB false) ↔ BoolInside ip B D P s T := by
  intro T
  induction T <;> intro s <;> simp_all [Tr.forgetB, BoolInside, operandsInside_forget]

section
variable {env : Env} {n : ℕ}

theorem run3_cov (hD : WellShaped n env.data) (hsem : env.sem = .SPACE) {T0 : Tr} {S E : ℚ} (h0 : 0 ≤ S)
    (hSE : S ≤ E) (hc : Covers env.data S (E + reach env.params T0)) (hF : IsUntilFormula n env.params T0)
    (hr : AtomsReach env.data env.params S E T0) (hp : UntilPlain n env.params T0)
    (hf : Fresh env.params S E T0)
    (hg : ∀ T1 v, Tr.computeRob env T0 = .ok (T1, v) → COk env.data env.params S E T1 → BGuard env T1) :
    ∃ x, Monitor.run3 env T0 = .ok x := by
  obtain ⟨T1, v, a1, a2, _⟩ := rob_cov hD hsem T0 h0 hSE hc hF hr hf
  have hF1 : IsUntilFormula n env.params T1 := by
    rw [← isUntilFormula_forget, Tr.forgetB_computeRob T0 a1, isUntilFormula_forget]; exact hF
  have hp1 : UntilPlain n env.params T1 := by
    rw [← untilPlain_forget, Tr.forgetB_computeRob T0 a1, untilPlain_forget]; exact hp
  obtain ⟨⟨T2, lo, b1, _⟩, ⟨T2', up, c1, _⟩⟩ := lu_cov hD hsem hc.ne T1 h0 hSE hF1 hp1 (hg T1 v a1 a2) a2
  obtain ⟨hS, _⟩ := rob_settles hD T0 hF.stl hf a1
  obtain ⟨_, hk⟩ := bnd_keeps hD T1 hS (b := true) b1
  rcases seen_cases hk.seen with ⟨x, e1, _⟩ | ⟨U', V1, w, e1, e2, _⟩
  · rw [show bnd env (!true) T1 = Tr.computeUp env T1 from rfl, c1] at e1; cases e1
  · exact ⟨(V1, v, lo, w), by
      simp only [Monitor.run3, a1, b1, bind, Except.bind]
      rw [show Tr.computeUp env T2 = .ok (V1, w) from e2]⟩

theorem bguard_apart : ∀ {T : Tr}, UntilsApart T → BGuard env T := by
  intro T
  have ne : ∀ {T : Tr}, ¬ IsUntil T → NoEmpty env T := by
    intro T h
    cases T with
    | untl => exact absurd trivial h
    | _ => trivial
  induction T with
  | not _ c ih | ev _ _ c ih | alw _ _ c ih => exact fun h => ih h
  | and _ l r h1 h2 | or _ l r h1 h2 | implies _ l r h1 h2 =>
    exact fun h => ⟨h1 h.1, h2 h.2.1, ne h.2.2.1, ne h.2.2.2⟩
  | _ => exact fun _ => trivial

/-! ## Operands strictly inside -/

/-- The operands of an `until` are comparisons that do not return `±B`. -/
def PreInside (env : Env) : Tr → Prop
  | .untl _ l _ r => IsComparison l ∧ IsComparison r ∧
      (∀ l' v, Tr.computeRob env l = .ok (l', v) → v ≠ -env.B ∧ v ≠ env.B) ∧
      ∀ r' v, Tr.computeRob env r = .ok (r', v) → v ≠ -env.B ∧ v ≠ env.B
  | _ => True

/-- `PreInside` for every operand of a Boolean operator. -/
def PreGuard (env : Env) : Tr → Prop
  | .not _ c | .ev _ _ c | .alw _ _ c => PreGuard env c
  | .and _ l r | .or _ l r | .implies _ l r => PreGuard env l ∧ PreGuard env r ∧ PreInside env l ∧ PreInside env r
  | _ => True

theorem atom_noempty (hD : WellShaped n env.data) (hsem : env.sem = .SPACE) (hne : env.data ≠ []) {S E : ℚ}
    (hE : 0 ≤ E) (hSE : S ≤ E) {T T' : Tr} {v : ℚ} (hat : IsComparison T) (hF : IsUntilFormula n env.params T)
    (h : Tr.computeRob env T = .ok (T', v)) (hT : COk env.data env.params S E T') (hv : v ≠ -env.B ∧ v ≠ env.B) :
    (∀ l' v, Tr.computeLow env T' = .ok (l', v) → v ≠ -env.B) ∧
    (∀ l' v, Tr.computeUp env T' = .ok (l', v) → v ≠ env.B) := by
  have hF1 : IsUntilFormula n env.params T' := by
    rw [← isUntilFormula_forget, Tr.forgetB_computeRob T h, isUntilFormula_forget]; exact hF
  cases T with
  | atom s k l r =>
    simp only [Tr.computeRob, bind_eq_ok, Prod.exists] at h
    obtain ⟨l', _, _, r', _, _, z, _, p, hp, h⟩ := h
    simp only [Except.ok.injEq, Prod.mk.injEq] at h
    obtain ⟨rfl, rfl⟩ := h
    obtain ⟨q, hq, ⟨T1, h1, _⟩, ⟨T2, h3, _⟩⟩ := atom_lu hD hsem hne hE hSE hF1 hT
    have : q = p := by
      have := hq.symm.trans hp
      exact Except.ok.inj this
    subst this
    refine ⟨fun l' v h => ?_, fun l' v h => ?_⟩
    · rw [h1] at h
      simp only [Except.ok.injEq, Prod.mk.injEq] at h
      rw [← h.2]; exact hv.1
    · rw [h3] at h
      simp only [Except.ok.injEq, Prod.mk.injEq] at h
      rw [← h.2]; exact hv.2
  | _ => exact hat.elim

theorem noempty_of_run (hD : WellShaped n env.data) (hsem : env.sem = .SPACE) (hne : env.data ≠ []) {S E : ℚ}
    (h0 : 0 ≤ S) (hSE : S ≤ E) {T T' : Tr} {v : ℚ} (hF : IsUntilFormula n env.params T) (hg : PreInside env T)
    (h : Tr.computeRob env T = .ok (T', v)) (hT : COk env.data env.params S E T') : NoEmpty env T' := by
  cases T with
  | untl s l I r =>
    simp only [Tr.computeRob, bind_eq_ok, Prod.exists] at h
    obtain ⟨l', v1, a1, r', v2, b1, z, _, p, hp, h⟩ := h
    simp only [Except.ok.injEq, Prod.mk.injEq] at h
    obtain ⟨rfl, rfl⟩ := h
    obtain ⟨_, ha, hab, hl, hr, _⟩ := hT
    have hb := ha.trans hab.le
    obtain ⟨x1, x2⟩ := atom_noempty hD hsem hne (by linarith) (by linarith) hg.1 hF.2.2.1 a1 hl (hg.2.2.1 _ _ a1)
    obtain ⟨y1, y2⟩ := atom_noempty hD hsem hne (by linarith) (by linarith) hg.2.1 hF.2.2.2 b1 hr (hg.2.2.2 _ _ b1)
    exact ⟨⟨x1, y1⟩, x2, y2⟩
  | _ =>
    have hf := Tr.forgetB_computeRob (b := false) _ h
    cases T' with
    | untl => simp [Tr.forgetB] at hf
    | _ => trivial

theorem bguard_setZ {z : Signal} : ∀ {T : Tr}, BGuard env (Tr.setZ z T) ↔ BGuard env T := by
  intro T
  cases T <;> exact Iff.rfl

/-- The guard holds after the first run. -/
theorem bguard_of_run (hD : WellShaped n env.data) (hsem : env.sem = .SPACE) (T : Tr) :
    ∀ {S E : ℚ} {T' : Tr} {v : ℚ}, 0 ≤ S → S ≤ E → Covers env.data S (E + reach env.params T) →
    IsUntilFormula n env.params T → AtomsReach env.data env.params S E T → Fresh env.params S E T →
    PreGuard env T → Tr.computeRob env T = .ok (T', v) → BGuard env T' := by
  induction T with
  | not s c ih =>
    intro S E T' v h0 hSE hc hF hr hf hg h
    simp only [Tr.computeRob, bind_eq_ok, Prod.exists] at h
    obtain ⟨c', v1, a1, p, hp, h⟩ := h
    simp only [Except.ok.injEq, Prod.mk.injEq] at h
    obtain ⟨rfl, rfl⟩ := h
    show BGuard env c'
    exact ih h0 hSE hc hF hr hf.2 hg a1
  | ev s I c ih =>
    intro S E T' v h0 hSE hc hF hr hf hg h
    simp only [Tr.computeRob, bind_eq_ok, Prod.exists] at h
    obtain ⟨c', v1, a1, z, zc, _, p, hp, h⟩ := h
    simp only [Except.ok.injEq, Prod.mk.injEq] at h
    obtain ⟨rfl, rfl⟩ := h
    have hab := hF.2.1
    have ha := hF.1
    exact bguard_setZ.2 (ih (by linarith) (by linarith) (hc.mono (by linarith) (by simp only [reach]; linarith))
      hF.2.2 hr hf.2 hg a1)
  | alw s I c ih =>
    intro S E T' v h0 hSE hc hF hr hf hg h
    simp only [Tr.computeRob, bind_eq_ok, Prod.exists] at h
    obtain ⟨c', v1, a1, z, _, p, hp, h⟩ := h
    simp only [Except.ok.injEq, Prod.mk.injEq] at h
    obtain ⟨rfl, rfl⟩ := h
    have hab := hF.2.1
    have ha := hF.1
    show BGuard env c'
    exact ih (by linarith) (by linarith) (hc.mono (by linarith) (by simp only [reach]; linarith))
      hF.2.2 hr hf.2 hg a1
  | and s l r ih1 ih2 | or s l r ih1 ih2 | implies s l r ih1 ih2 =>
    intro S E T' v h0 hSE hc hF hr hf hg h
    simp only [Tr.computeRob, bind_eq_ok, Prod.exists] at h
    obtain ⟨l', v1, a1, r', v2, b1, z, _, p, hp, h⟩ := h
    simp only [Except.ok.injEq, Prod.mk.injEq] at h
    obtain ⟨rfl, rfl⟩ := h
    have c1 := hc.mono (e' := E + reach env.params l) le_rfl
      (by simp only [reach]; gcongr; exact le_max_left _ _)
    have c2 := hc.mono (e' := E + reach env.params r) le_rfl
      (by simp only [reach]; gcongr; exact le_max_right _ _)
    obtain ⟨l1, w1, x1, x2, _⟩ := rob_cov hD hsem l h0 hSE c1 hF.1 hr.1 hf.2.1
    obtain ⟨r1, w2, y1, y2, _⟩ := rob_cov hD hsem r h0 hSE c2 hF.2 hr.2 hf.2.2
    rw [a1] at x1
    rw [b1] at y1
    simp only [Except.ok.injEq, Prod.mk.injEq] at x1 y1
    obtain ⟨rfl, rfl⟩ := x1
    obtain ⟨rfl, rfl⟩ := y1
    exact ⟨ih1 h0 hSE c1 hF.1 hr.1 hf.2.1 hg.1 a1, ih2 h0 hSE c2 hF.2 hr.2 hf.2.2 hg.2.1 b1,
      noempty_of_run hD hsem hc.ne h0 hSE hF.1 hg.2.2.1 a1 x2,
      noempty_of_run hD hsem hc.ne h0 hSE hF.2 hg.2.2.2 b1 y2⟩
  | untl s l I r _ _ =>
    intro S E T' v h0 hSE hc hF hr hf hg h
    simp only [Tr.computeRob, bind_eq_ok, Prod.exists] at h
    obtain ⟨l', v1, a1, r', v2, b1, z, _, p, hp, h⟩ := h
    simp only [Except.ok.injEq, Prod.mk.injEq] at h
    obtain ⟨rfl, rfl⟩ := h
    trivial
  | atom s k l r =>
    intro S E T' v h0 hSE hc hF hr hf hg h
    simp only [Tr.computeRob, bind_eq_ok, Prod.exists] at h
    obtain ⟨l', v1, a1, r', v2, b1, z, _, p, hp, h⟩ := h
    simp only [Except.ok.injEq, Prod.mk.injEq] at h
    obtain ⟨rfl, rfl⟩ := h
    trivial
  | _ => intro _ _ _ _ _ _ _ hF; exact hF.elim

theorem inside_ne {B v : ℚ} {x : EReal} (h : Inside B x) (hx : x = er v) : v ≠ -B ∧ v ≠ B := by
  subst hx
  constructor
  · rintro rfl; exact lt_irrefl _ h.1
  · rintro rfl; exact lt_irrefl _ h.2

/-! ## LINEAR interpolation -/

theorem preGuard_lin (hL : Lin env n) (hsem : env.sem = .SPACE) (T : Tr) : ∀ {S E : ℚ}, 0 ≤ S → S ≤ E →
    Covers env.data S (E + reach env.params T) → IsUntilFormula n env.params T → Fresh env.params S E T →
    LinNestOk env.data env.params S E T → AtomsWithin .LINEAR env.B env.data env.params S E T →
    BoolInside .LINEAR env.B env.data env.params S T → PreGuard env T := by
  have op : ∀ {S E : ℚ} {T : Tr}, 0 ≤ S → S ≤ E → Covers env.data S E → IsComparison T →
      IsUntilFormula n env.params T → Fresh env.params S E T → AtomsOk env.data env.params S E T →
      AtomsWithin .LINEAR env.B env.data env.params S E T → Inside env.B (rob .LINEAR env.data env.params T S) →
      ∀ T' v, Tr.computeRob env T = .ok (T', v) → v ≠ -env.B ∧ v ≠ env.B := by
    intro S E T h0 hSE hc hat hF hf hk hw hi T' v h
    cases T with
    | atom s k l r =>
      obtain ⟨T1, w, a1, a2, _⟩ := atom_first hL hsem hc (h0.trans hSE) hSE hF hf hk hw
      rw [h] at a1
      simp only [Except.ok.injEq, Prod.mk.injEq] at a1
      obtain ⟨rfl, rfl⟩ := a1
      exact inside_ne hi a2.eq
    | _ => exact hat.elim
  have dir : ∀ {S E : ℚ} {T : Tr}, 0 ≤ S → S ≤ E → Covers env.data S (E + reach env.params T) →
      IsUntilFormula n env.params T → Fresh env.params S E T →
      LinNestOk env.data env.params S E T → AtomsWithin .LINEAR env.B env.data env.params S E T →
      OperandsInside .LINEAR env.B env.data env.params S T → PreInside env T := by
    intro S E T h0 hSE hc hF hf hk hw hi
    cases T with
    | untl s l I r =>
      obtain ⟨_, k1, k2, k3, k4, _⟩ := hk
      obtain ⟨i1, i2, i3, i4⟩ := hi
      have ha := hF.1
      have hab := hF.2.1
      have hm : 0 ≤ max (reach env.params l) (reach env.params r) := by
        refine le_max_of_le_left ?_
        cases l with
        | atom => exact le_rfl
        | _ => exact i1.elim
      have hc' : Covers env.data S (E + bound env.params I.stopStr I.stop) :=
        hc.mono le_rfl (by simp only [reach]; linarith)
      exact ⟨i1, i2, op h0 (by linarith) hc' i1 hF.2.2.1 hf.2.1 k3 hw.1 i3,
        op (by linarith) (by linarith) (hc'.mono (by linarith) le_rfl) i2 hF.2.2.2 hf.2.2 k4 hw.2 i4⟩
    | _ => trivial
  induction T with
  | not s c ih =>
    intro S E h0 hSE hc hF hf hk hw hi
    exact ih h0 hSE hc hF hf.2 hk hw hi
  | ev s I c ih | alw s I c ih =>
    intro S E h0 hSE hc hF hf hk hw hi
    have ha := hF.1
    have hab := hF.2.1
    exact ih (by linarith) (by linarith) (hc.mono (by linarith) (by simp only [reach]; linarith)) hF.2.2 hf.2
      hk.1 hw hi
  | and s l r ih1 ih2 | or s l r ih1 ih2 =>
    intro S E h0 hSE hc hF hf hk hw hi
    have c1 := hc.mono (e' := E + reach env.params l) le_rfl
      (by simp only [reach]; gcongr; exact le_max_left _ _)
    have c2 := hc.mono (e' := E + reach env.params r) le_rfl
      (by simp only [reach]; gcongr; exact le_max_right _ _)
    exact ⟨ih1 h0 hSE c1 hF.1 hf.2.1 hk.1 hw.1 hi.1, ih2 h0 hSE c2 hF.2 hf.2.2 hk.2.1 hw.2 hi.2.1,
      dir h0 hSE c1 hF.1 hf.2.1 hk.1 hw.1 hi.2.2.1, dir h0 hSE c2 hF.2 hf.2.2 hk.2.1 hw.2 hi.2.2.2⟩
  | implies s l r ih1 ih2 =>
    intro S E h0 hSE hc hF hf hk hw hi
    have c1 := hc.mono (e' := E + reach env.params l) le_rfl
      (by simp only [reach]; gcongr; exact le_max_left _ _)
    have c2 := hc.mono (e' := E + reach env.params r) le_rfl
      (by simp only [reach]; gcongr; exact le_max_right _ _)
    exact ⟨ih1 h0 hSE c1 hF.1 hf.2.1 hk.1 hw.1 hi.1, ih2 h0 hSE c2 hF.2 hf.2.2 hk.2 hw.2 hi.2.1,
      dir h0 hSE c1 hF.1 hf.2.1 hk.1 hw.1 hi.2.2.1, dir h0 hSE c2 hF.2 hf.2.2 hk.2 hw.2 hi.2.2.2⟩
  | _ => intros; trivial

/-! ## PREVIOUS interpolation -/

theorem preGuard_prev (hL : Prev env n) (hsem : env.sem = .SPACE) (T : Tr) : ∀ {S E : ℚ}, 0 ≤ S → S ≤ E →
    Covers env.data S (E + reach env.params T) → IsUntilFormula n env.params T → Fresh env.params S E T →
    NestOk env.data env.params S E T → AtomsWithin .PREVIOUS env.B env.data env.params S E T →
    BoolInside .PREVIOUS env.B env.data env.params S T → PreGuard env T := by
  have op : ∀ {S E : ℚ} {T : Tr}, 0 ≤ S → S ≤ E → Covers env.data S E → IsComparison T →
      IsUntilFormula n env.params T → Fresh env.params S E T → NestOk env.data env.params S E T →
      AtomsWithin .PREVIOUS env.B env.data env.params S E T → Inside env.B (rob .PREVIOUS env.data env.params T S) →
      ∀ T' v, Tr.computeRob env T = .ok (T', v) → v ≠ -env.B ∧ v ≠ env.B := by
    intro S E T h0 hSE hc hat hF hf hk hw hi T' v h
    cases T with
    | atom s k l r =>
      obtain ⟨T1, w, a1, a2⟩ := atom_prev hL hsem hc (h0.trans hSE) hSE hF hf hk hw
      rw [h] at a1
      simp only [Except.ok.injEq, Prod.mk.injEq] at a1
      obtain ⟨rfl, rfl⟩ := a1
      exact inside_ne hi (by rw [a2.is S le_rfl hSE, a2.val])
    | _ => exact hat.elim
  have dir : ∀ {S E : ℚ} {T : Tr}, 0 ≤ S → S ≤ E → Covers env.data S (E + reach env.params T) →
      IsUntilFormula n env.params T → Fresh env.params S E T →
      NestOk env.data env.params S E T → AtomsWithin .PREVIOUS env.B env.data env.params S E T →
      OperandsInside .PREVIOUS env.B env.data env.params S T → PreInside env T := by
    intro S E T h0 hSE hc hF hf hk hw hi
    cases T with
    | untl s l I r =>
      obtain ⟨_, k3, k4, _⟩ := hk
      obtain ⟨i1, i2, i3, i4⟩ := hi
      have ha := hF.1
      have hab := hF.2.1
      have hm : 0 ≤ max (reach env.params l) (reach env.params r) := by
        refine le_max_of_le_left ?_
        cases l with
        | atom => exact le_rfl
        | _ => exact i1.elim
      have hc' : Covers env.data S (E + bound env.params I.stopStr I.stop) :=
        hc.mono le_rfl (by simp only [reach]; linarith)
      exact ⟨i1, i2, op h0 (by linarith) hc' i1 hF.2.2.1 hf.2.1 k3 hw.1 i3,
        op (by linarith) (by linarith) (hc'.mono (by linarith) le_rfl) i2 hF.2.2.2 hf.2.2 k4 hw.2 i4⟩
    | _ => trivial
  induction T with
  | not s c ih =>
    intro S E h0 hSE hc hF hf hk hw hi
    exact ih h0 hSE hc hF hf.2 hk hw hi
  | ev s I c ih | alw s I c ih =>
    intro S E h0 hSE hc hF hf hk hw hi
    have ha := hF.1
    have hab := hF.2.1
    exact ih (by linarith) (by linarith) (hc.mono (by linarith) (by simp only [reach]; linarith)) hF.2.2 hf.2
      hk hw hi
  | and s l r ih1 ih2 | or s l r ih1 ih2 | implies s l r ih1 ih2 =>
    intro S E h0 hSE hc hF hf hk hw hi
    have c1 := hc.mono (e' := E + reach env.params l) le_rfl
      (by simp only [reach]; gcongr; exact le_max_left _ _)
    have c2 := hc.mono (e' := E + reach env.params r) le_rfl
      (by simp only [reach]; gcongr; exact le_max_right _ _)
    exact ⟨ih1 h0 hSE c1 hF.1 hf.2.1 hk.1 hw.1 hi.1, ih2 h0 hSE c2 hF.2 hf.2.2 hk.2.1 hw.2 hi.2.1,
      dir h0 hSE c1 hF.1 hf.2.1 hk.1 hw.1 hi.2.2.1, dir h0 hSE c2 hF.2 hf.2.2 hk.2.1 hw.2 hi.2.2.2⟩
  | _ => intros; trivial

end

/-! ## Monitors -/

section
variable {g : Globals} {m : Monitor} {n : ℕ} {T : Tr}

theorem evalRob_of_run3 {s e : ℚ} (hm : m.formula = some T)
    (h : ∃ x, Monitor.run3 (m.envOf g) (Monitor.prepare m.params s e T) = .ok x) :
    ∃ g' m' v, m.evalRob g s e = (g', m', .ok v) := by
  obtain ⟨⟨T', r, lo, up⟩, h⟩ := h
  refine ⟨{ g with sem := m.sem, ip := m.ip }, { m with formula := some T', rob := r, lowerRob := lo, upperRob := up }, r, ?_⟩
  unfold Monitor.evalRob
  rw [hm]
  simp only
  unfold Monitor.envOf at h
  rw [h]

/-- `compute_robustness` returns, whatever the formula, when the data covers it. -/
theorem rob_ready {s e : ℚ} (h : RunReady n m T s e) :
    ∃ T' v, Tr.computeRob (m.envOf g) (Monitor.prepare m.params s e T) = .ok (T', v) := by
  have hp : (Monitor.prepare m.params s e T).forgetB false = T.forgetB false :=
    Tr.forgetB_prepare (by simp [h.names]) s e T
  obtain ⟨T', v, h1, _⟩ := rob_cov (env := m.envOf g) h.rows h.sem (Monitor.prepare m.params s e T) h.start h.order
    (by rw [← reach_forget, hp, reach_forget]; exact h.covers)
    (by rw [← isUntilFormula_forget, hp, isUntilFormula_forget]; exact h.shape)
    (by rw [← atomsReach_forget, hp, atomsReach_forget]; exact h.ends) (fresh_prepare _ T s e)
  exact ⟨T', v, h1⟩

/-- A whole evaluation returns when no until contains another or is an operand of a Boolean operator. -/
theorem evalRob_ready {s e : ℚ} (h : RunReady n m T s e) (hu : UntilPlain n m.params T) (ha : UntilsApart T) :
    ∃ g' m' v, m.evalRob g s e = (g', m', .ok v) := by
  have hp : (Monitor.prepare m.params s e T).forgetB false = T.forgetB false :=
    Tr.forgetB_prepare (by simp [h.names]) s e T
  refine evalRob_of_run3 h.formula (run3_cov (env := m.envOf g) h.rows h.sem h.start h.order
    (by rw [← reach_forget, hp, reach_forget]; exact h.covers)
    (by rw [← isUntilFormula_forget, hp, isUntilFormula_forget]; exact h.shape)
    (by rw [← atomsReach_forget, hp, atomsReach_forget]; exact h.ends)
    (by rw [← untilPlain_forget, hp, untilPlain_forget]; exact hu) (fresh_prepare _ T s e) fun T1 v h1 _ => ?_)
  refine bguard_apart ?_
  rw [← untilsApart_forget, Tr.forgetB_computeRob _ h1, hp, untilsApart_forget]
  exact ha

theorem linNest_reach {D : List (List ℚ)} {P : Assoc ℚ} : ∀ {T : Tr} {s e : ℚ}, LinNestOk D P s e T →
    AtomsReach D P s e T := by
  have at' : ∀ {T : Tr} {s e : ℚ}, IsComparison T → AtomsOk D P s e T → AtomsReach D P s e T := by
    intro T s e hc h
    cases T with
    | atom => exact h.imp (·.1) (fun h => h.2.2)
    | _ => trivial
  intro T
  induction T with
  | atom => exact fun h => h.imp (·.1) (fun h => h.2.2)
  | not _ c ih => exact fun h => ih h
  | ev _ _ c ih | alw _ _ c ih => exact fun h => ih h.1
  | and _ l r h1 h2 | or _ l r h1 h2 => exact fun h => ⟨h1 h.1, h2 h.2.1⟩
  | implies _ l r h1 h2 => exact fun h => ⟨h1 h.1, h2 h.2⟩
  | untl _ l _ r => exact fun h => ⟨at' h.2.1 h.2.2.2.1, at' h.2.2.1 h.2.2.2.2.1⟩
  | _ => exact fun _ => trivial

theorem comparison_formula {P : Assoc ℚ} {T : Tr} (hc : IsComparison T) (h : IsUntilFormula n P T) :
    IsFormula n P T := by
  cases T with
  | atom => exact h
  | _ => exact hc.elim

theorem linNest_plain {D : List (List ℚ)} {P : Assoc ℚ} : ∀ {T : Tr} {s e : ℚ}, IsUntilFormula n P T →
    LinNestOk D P s e T → UntilPlain n P T := by
  intro T
  induction T with
  | not _ c ih => exact fun k h => ih k h
  | ev _ _ c ih | alw _ _ c ih => exact fun k h => ih k.2.2 h.1
  | and _ l r h1 h2 | or _ l r h1 h2 => exact fun k h => ⟨h1 k.1 h.1, h2 k.2 h.2.1⟩
  | implies _ l r h1 h2 => exact fun k h => ⟨h1 k.1 h.1, h2 k.2 h.2⟩
  | untl _ l _ r => exact fun k h => ⟨comparison_formula h.2.1 k.2.2.1, comparison_formula h.2.2.1 k.2.2.2⟩
  | _ => exact fun _ _ => trivial

theorem nest_reach {D : List (List ℚ)} {P : Assoc ℚ} : ∀ {T : Tr} {s e : ℚ}, NestOk D P s e T →
    AtomsReach D P s e T := by
  intro T
  induction T with
  | atom => exact fun h => h.imp (·.1) id
  | not _ c ih | ev _ _ c ih | alw _ _ c ih => exact fun h => ih h
  | and _ l r h1 h2 | or _ l r h1 h2 | implies _ l r h1 h2 => exact fun h => ⟨h1 h.1, h2 h.2.1⟩
  | untl _ l _ r h1 h2 => exact fun h => ⟨h1 h.2.1, h2 h.2.2.1⟩
  | _ => exact fun _ => trivial

/-- With LINEAR interpolation the evaluation returns the robustness. -/
theorem evalRob_lin_runs {t : ℚ} (h : LinNestReady n g.B m T t) (hi : BoolInside .LINEAR g.B m.data m.params t T) :
    ∃ g' m' v, m.evalRob1 g t = (g', m', .ok v) ∧ rob .LINEAR m.data m.params T t = er v := by
  have hp : (Monitor.prepare m.params t t T).forgetB false = T.forgetB false :=
    Tr.forgetB_prepare (by simp [h.names]) t t T
  have hL : Lin (m.envOf g) n := ⟨h.interpol, h.rows, h.names⟩
  have k1 : Covers m.data t (t + reach m.params (Monitor.prepare m.params t t T)) := by
    rw [← reach_forget, hp, reach_forget]; exact h.covers
  have k2 : IsUntilFormula n m.params (Monitor.prepare m.params t t T) := by
    rw [← isUntilFormula_forget, hp, isUntilFormula_forget]; exact h.shape
  have k3 : LinNestOk m.data m.params t t (Monitor.prepare m.params t t T) := by
    rw [← linNestOk_forget, hp, linNestOk_forget]; exact h.ok
  have hf := fresh_prepare m.params T t t
  obtain ⟨g', m', v, hv⟩ := evalRob_of_run3 (g := g) h.formula (run3_cov (env := m.envOf g) h.rows h.sem h.start le_rfl
    k1 k2 (linNest_reach k3) (linNest_plain k2 k3) hf fun T1 v h1 _ =>
      bguard_of_run h.rows h.sem _ h.start le_rfl k1 k2 (linNest_reach k3) hf
        (preGuard_lin hL h.sem _ h.start le_rfl k1 k2 hf k3
          (by rw [← atomsWithin_forget, hp, atomsWithin_forget]; exact h.within)
          (by rw [← boolInside_forget, hp, boolInside_forget]; exact hi)) h1)
  exact ⟨g', m', v, hv, evalRob_lin h hv⟩

/-- With PREVIOUS interpolation the evaluation returns the robustness. -/
theorem evalRob_nest_runs {t : ℚ} (h : NestReady n g.B m T t) (hu : UntilPlain n m.params T)
    (hi : BoolInside .PREVIOUS g.B m.data m.params t T) :
    ∃ g' m' v, m.evalRob1 g t = (g', m', .ok v) ∧ rob .PREVIOUS m.data m.params T t = er v := by
  have hp : (Monitor.prepare m.params t t T).forgetB false = T.forgetB false :=
    Tr.forgetB_prepare (by simp [h.names]) t t T
  have hL : Prev (m.envOf g) n := ⟨h.interpol, h.rows⟩
  have k1 : Covers m.data t (t + reach m.params (Monitor.prepare m.params t t T)) := by
    rw [← reach_forget, hp, reach_forget]; exact h.covers
  have k2 : IsUntilFormula n m.params (Monitor.prepare m.params t t T) := by
    rw [← isUntilFormula_forget, hp, isUntilFormula_forget]; exact h.shape
  have k3 : NestOk m.data m.params t t (Monitor.prepare m.params t t T) := by
    rw [← nestOk_forget, hp, nestOk_forget]; exact h.ok
  have hf := fresh_prepare m.params T t t
  obtain ⟨g', m', v, hv⟩ := evalRob_of_run3 (g := g) h.formula (run3_cov (env := m.envOf g) h.rows h.sem h.start le_rfl
    k1 k2 (nest_reach k3) (by rw [← untilPlain_forget, hp, untilPlain_forget]; exact hu) hf fun T1 v h1 _ =>
      bguard_of_run h.rows h.sem _ h.start le_rfl k1 k2 (nest_reach k3) hf
        (preGuard_prev hL h.sem _ h.start le_rfl k1 k2 hf k3
          (by rw [← atomsWithin_forget, hp, atomsWithin_forget]; exact h.within)
          (by rw [← boolInside_forget, hp, boolInside_forget]; exact hi)) h1)
  exact ⟨g', m', v, hv, evalRob_nest h hv⟩

end
end STLRom
