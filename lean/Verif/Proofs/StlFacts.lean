import Verif.Proofs.FormulaLU

/-!
# Facts about the robustness semantics itself
-/

namespace STLRom
open Signal Spec

theorem er_zero : er 0 = 0 := by simp [er]

theorem er_pos {v : ℚ} : 0 < er v ↔ 0 < v := by
  rw [← er_zero, ← not_le, er_le, not_le]

theorem er_neg' {v : ℚ} : er v < 0 ↔ v < 0 := by
  rw [← er_zero, ← not_le, er_le, not_le]

/-- Positive robustness means satisfied, negative means violated. -/
theorem rob_sat {ip : Interpol} {D : List (List ℚ)} {P : Assoc ℚ} : ∀ {T : Tr} (t : ℚ),
    (0 < rob ip D P T t → Sat ip D P T t) ∧ (rob ip D P T t < 0 → ¬ Sat ip D P T t) := by
  intro T
  induction T with
  | atom s k l r =>
    intro t
    simp only [rob, er_pos, er_neg']
    cases k <;> simp only [margin, Sat] <;> constructor <;> intro h <;> linarith
  | not s c ih =>
    intro t
    simp only [rob, Sat, not_not]
    refine ⟨fun h => (ih t).2 ?_, fun h => (ih t).1 ?_⟩
    · exact EReal.neg_pos.1 h
    · exact EReal.neg_lt_zero.1 h
  | and s l r ih1 ih2 =>
    intro t
    simp only [rob, Sat]
    refine ⟨fun h => ?_, fun h => ?_⟩
    · rw [lt_inf_iff] at h
      exact ⟨(ih1 t).1 h.1, (ih2 t).1 h.2⟩
    · rw [inf_lt_iff] at h
      rintro ⟨a, b⟩
      rcases h with h | h
      · exact (ih1 t).2 h a
      · exact (ih2 t).2 h b
  | or s l r ih1 ih2 =>
    intro t
    simp only [rob, Sat]
    refine ⟨fun h => ?_, fun h => ?_⟩
    · rw [lt_sup_iff] at h
      exact h.imp (ih1 t).1 (ih2 t).1
    · rw [sup_lt_iff] at h
      rintro (a | a)
      · exact (ih1 t).2 h.1 a
      · exact (ih2 t).2 h.2 a
  | implies s l r ih1 ih2 =>
    intro t
    simp only [rob, Sat]
    refine ⟨fun h => ?_, fun h => ?_⟩
    · rw [lt_sup_iff] at h
      intro hl
      rcases h with h | h
      · exact absurd hl ((ih1 t).2 (EReal.neg_pos.1 h))
      · exact (ih2 t).1 h
    · rw [sup_lt_iff] at h
      intro hi
      exact (ih2 t).2 h.2 (hi ((ih1 t).1 (EReal.neg_lt_zero.1 h.1)))
  | ev s I c ih =>
    intro t
    simp only [rob, Sat]
    refine ⟨fun h => ?_, fun h => ?_⟩
    · simp only [lt_iSup_iff] at h
      obtain ⟨r, hr, h⟩ := h
      exact ⟨r, hr.1, hr.2, (ih r).1 h⟩
    · rintro ⟨r, h1, h2, h3⟩
      exact (ih r).2 (lt_of_le_of_lt (le_iSup₂_of_le r ⟨h1, h2⟩ le_rfl) h) h3
  | alw s I c ih =>
    intro t
    simp only [rob, Sat]
    refine ⟨fun h r h1 h2 => ?_, fun h => ?_⟩
    · exact (ih r).1 (lt_of_lt_of_le h (iInf₂_le_of_le r ⟨h1, h2⟩ le_rfl))
    · simp only [iInf_lt_iff] at h
      obtain ⟨r, hr, h⟩ := h
      exact fun h' => (ih r).2 h (h' r hr.1 hr.2)
  | untl s l I r ih1 ih2 =>
    intro t
    simp only [rob, Sat]
    refine ⟨fun h => ?_, fun h => ?_⟩
    · simp only [lt_iSup_iff] at h
      obtain ⟨u, hu, h⟩ := h
      rw [lt_inf_iff] at h
      exact ⟨u, hu.1, hu.2, (ih2 u).1 h.1, fun w h1 h2 =>
        (ih1 w).1 (lt_of_lt_of_le h.2 (iInf₂_le_of_le w ⟨h1, h2⟩ le_rfl))⟩
    · rintro ⟨u, h1, h2, h3, h4⟩
      have := lt_of_le_of_lt (le_iSup₂_of_le (f := fun u (_ : u ∈ Set.Icc (t + bound P I.beginStr I.begin) (t + bound P I.stopStr I.stop)) => rob ip D P r u ⊓ ⨅ w ∈ Set.Icc t u, rob ip D P l w) u ⟨h1, h2⟩ le_rfl) h
      rw [inf_lt_iff] at this
      rcases this with h5 | h5
      · exact (ih2 u).2 h5 h3
      · simp only [iInf_lt_iff] at h5
        obtain ⟨w, hw, h5⟩ := h5
        exact (ih1 w).2 h5 (h4 w hw.1 hw.2)
  | _ => intro t; simp [rob]

/-- Every atom of the formula differs by at most `d` on its evaluation interval. -/
def AtomsNear (ip : Interpol) (d : ℚ) (D D' : List (List ℚ)) (P : Assoc ℚ) : ℚ → ℚ → Tr → Prop
  | s, e, .atom _ k l r => ∀ t, s ≤ t → t ≤ e →
    |margin k (expr ip D P l t) (expr ip D P r t) - margin k (expr ip D' P l t) (expr ip D' P r t)| ≤ d
  | s, e, .not _ c => AtomsNear ip d D D' P s e c
  | s, e, .and _ l r | s, e, .or _ l r | s, e, .implies _ l r =>
    AtomsNear ip d D D' P s e l ∧ AtomsNear ip d D D' P s e r
  | s, e, .ev _ I c | s, e, .alw _ I c =>
    AtomsNear ip d D D' P (s + bound P I.beginStr I.begin) (e + bound P I.stopStr I.stop) c
  | s, e, .untl _ l I r =>
    AtomsNear ip d D D' P s (e + bound P I.stopStr I.stop) l ∧
      AtomsNear ip d D D' P (s + bound P I.beginStr I.begin) (e + bound P I.stopStr I.stop) r
  | _, _, _ => True

theorem er_add (a b : ℚ) : er (a + b) = er a + er b := by
  unfold er; rw [Rat.cast_add, EReal.coe_add]

/-- `a` is at most `d` above `b`. -/
def Near (d : ℚ) (a b : EReal) : Prop := a ≤ b + er d

theorem near_neg {d : ℚ} {a b : EReal} (h : Near d a b) : Near d (-b) (-a) := by
  unfold Near at *
  have h1 : er d ≠ ⊥ := EReal.coe_ne_bot _
  have h2 : er d ≠ ⊤ := EReal.coe_ne_top _
  rw [← EReal.sub_le_iff_le_add (Or.inl h1) (Or.inl h2)] at h
  have h3 := EReal.neg_le_neg_iff.2 h
  rwa [EReal.neg_sub (Or.inr h1) (Or.inr h2)] at h3

theorem rob_near {ip : Interpol} {d : ℚ} {D D' : List (List ℚ)} {P : Assoc ℚ} : ∀ {T : Tr} (s e : ℚ),
    AtomsNear ip d D D' P s e T → (∃ n, IsFormula n P T) → ∀ t, s ≤ t → t ≤ e →
    Near d (rob ip D P T t) (rob ip D' P T t) ∧ Near d (rob ip D' P T t) (rob ip D P T t) := by
  intro T
  induction T with
  | atom st k l r =>
    intro s e h _ t h1 h2
    have := abs_le.1 (h t h1 h2)
    simp only [rob, Near, ← er_add, er_le]
    constructor <;> linarith [this.1, this.2]
  | not st c ih =>
    intro s e h hF t h1 h2
    obtain ⟨a, b⟩ := ih s e h hF t h1 h2
    exact ⟨near_neg b, near_neg a⟩
  | and st l r ih1 ih2 =>
    rintro s e h ⟨n, hF⟩ t h1 h2
    obtain ⟨a, b⟩ := ih1 s e h.1 ⟨n, hF.1⟩ t h1 h2
    obtain ⟨c, f⟩ := ih2 s e h.2 ⟨n, hF.2⟩ t h1 h2
    simp only [rob, Near] at *
    rw [(add_left_mono (α := EReal)).map_min, (add_left_mono (α := EReal)).map_min]
    exact ⟨inf_le_inf a c, inf_le_inf b f⟩
  | or st l r ih1 ih2 =>
    rintro s e h ⟨n, hF⟩ t h1 h2
    obtain ⟨a, b⟩ := ih1 s e h.1 ⟨n, hF.1⟩ t h1 h2
    obtain ⟨c, f⟩ := ih2 s e h.2 ⟨n, hF.2⟩ t h1 h2
    simp only [rob, Near] at *
    rw [(add_left_mono (α := EReal)).map_max, (add_left_mono (α := EReal)).map_max]
    exact ⟨sup_le_sup a c, sup_le_sup b f⟩
  | implies st l r ih1 ih2 =>
    rintro s e h ⟨n, hF⟩ t h1 h2
    obtain ⟨a, b⟩ := ih1 s e h.1 ⟨n, hF.1⟩ t h1 h2
    obtain ⟨c, f⟩ := ih2 s e h.2 ⟨n, hF.2⟩ t h1 h2
    have a' := near_neg a
    have b' := near_neg b
    simp only [rob, Near] at *
    rw [(add_left_mono (α := EReal)).map_max, (add_left_mono (α := EReal)).map_max]
    exact ⟨sup_le_sup b' c, sup_le_sup a' f⟩
  | ev st I c ih =>
    rintro s e h ⟨n, hF⟩ t h1 h2
    simp only [rob, Near]
    constructor
    · refine iSup₂_le fun r hr => ((ih _ _ h ⟨n, hF.2.2⟩ r (by linarith [hr.1]) (by linarith [hr.2])).1).trans ?_
      gcongr
      exact le_iSup₂_of_le r hr le_rfl
    · refine iSup₂_le fun r hr => ((ih _ _ h ⟨n, hF.2.2⟩ r (by linarith [hr.1]) (by linarith [hr.2])).2).trans ?_
      gcongr
      exact le_iSup₂_of_le r hr le_rfl
  | alw st I c ih =>
    rintro s e h ⟨n, hF⟩ t h1 h2
    have k1 : er d ≠ ⊥ := EReal.coe_ne_bot _
    have k2 : er d ≠ ⊤ := EReal.coe_ne_top _
    simp only [rob, Near]
    constructor
    · rw [← EReal.sub_le_iff_le_add (Or.inl k1) (Or.inl k2)]
      refine le_iInf₂ fun r hr => ?_
      rw [EReal.sub_le_iff_le_add (Or.inl k1) (Or.inl k2)]
      exact (iInf₂_le r hr).trans (ih _ _ h ⟨n, hF.2.2⟩ r (by linarith [hr.1]) (by linarith [hr.2])).1
    · rw [← EReal.sub_le_iff_le_add (Or.inl k1) (Or.inl k2)]
      refine le_iInf₂ fun r hr => ?_
      rw [EReal.sub_le_iff_le_add (Or.inl k1) (Or.inl k2)]
      exact (iInf₂_le r hr).trans (ih _ _ h ⟨n, hF.2.2⟩ r (by linarith [hr.1]) (by linarith [hr.2])).2
  | _ => rintro s e h ⟨n, hF⟩; exact hF.elim

/-! ## Interpolation as a mixture of two rows -/

/-- Which rows are mixed at time `t`, and in which proportion. -/
def mixAt (t : ℚ) : List ℚ → ℕ × ℕ × ℚ
  | [] => (0, 0, 0)
  | [_] => (0, 0, 0)
  | t0 :: t1 :: r =>
    if t < t1 then (0, 1, (t - t0) / (t1 - t0))
    else let m := mixAt t (t1 :: r); (m.1 + 1, m.2.1 + 1, m.2.2)

theorem mixAt_spec (t : ℚ) : ∀ (D : List (List ℚ)), D ≠ [] → (D.map rowTime).Pairwise (· < ·) →
    (∀ row, D.head? = some row → rowTime row ≤ t) →
    0 ≤ (mixAt t (D.map rowTime)).2.2 ∧ (mixAt t (D.map rowTime)).2.2 ≤ 1 ∧
    ∃ r1 r2, D[(mixAt t (D.map rowTime)).1]? = some r1 ∧ D[(mixAt t (D.map rowTime)).2.1]? = some r2 ∧
      ∀ g : List ℚ → ℚ, interp .LINEAR (colf g D) t = some ((1 - (mixAt t (D.map rowTime)).2.2) * g r1 +
        (mixAt t (D.map rowTime)).2.2 * g r2)
  | [], h, _, _ => absurd rfl h
  | [a], _, _, h => by
    refine ⟨by simp [mixAt], by simp [mixAt], a, a, by simp [mixAt], by simp [mixAt], fun g => ?_⟩
    have := h a rfl
    simp [mixAt, colf, interp, this]
  | a :: b :: D, _, hp, h => by
    have ha := h a rfl
    have hab : rowTime a < rowTime b := by
      simp only [List.map_cons, List.pairwise_cons] at hp
      exact hp.1 _ (by simp)
    by_cases ht : t < rowTime b
    · have e : mixAt t ((a :: b :: D).map rowTime) = (0, 1, (t - rowTime a) / (rowTime b - rowTime a)) := by
        simp [mixAt, ht]
      rw [e]
      refine ⟨div_nonneg (by linarith) (by linarith), (div_le_one (by linarith)).2 (by linarith), a, b,
        rfl, rfl, fun g => ?_⟩
      simp only [colf, List.map_cons, interp, if_neg (not_lt.2 ha), if_pos ht]
      have : rowTime b - rowTime a ≠ 0 := by linarith [sub_pos.2 hab]
      congr 1
      field_simp
      ring
    · have e : mixAt t ((a :: b :: D).map rowTime) = ((mixAt t ((b :: D).map rowTime)).1 + 1,
          (mixAt t ((b :: D).map rowTime)).2.1 + 1, (mixAt t ((b :: D).map rowTime)).2.2) := by
        simp [mixAt, ht]
      have ih := mixAt_spec t (b :: D) (by simp) (by
        simp only [List.map_cons, List.pairwise_cons] at hp ⊢
        exact hp.2) (by
        intro row hr
        simp only [List.head?_cons, Option.some.injEq] at hr
        rw [← hr]; exact not_lt.1 ht)
      rw [e]
      obtain ⟨i1, i2, r1, r2, i3, i4, i5⟩ := ih
      refine ⟨i1, i2, r1, r2, by simpa using i3, by simpa using i4, fun g => ?_⟩
      rw [← i5 g]
      simp only [colf, List.map_cons, interp, if_neg (not_lt.2 ha), if_neg ht]

theorem rowExpr_const {ip : Interpol} {D : List (List ℚ)} {P : Assoc ℚ} {T : Tr} (h : IsConst T)
    (row : List ℚ) (t : ℚ) : expr ip D P T t = rowExpr P row T := by
  induction T with
  | const => rfl
  | abs _ c ih => simp only [expr, rowExpr, ih h]
  | plus _ l r h1 h2 | minus _ l r h1 h2 | mult _ l r h1 h2 =>
    simp only [expr, rowExpr, h1 h.1, h2 h.2]
  | _ => exact h.elim

theorem rowExpr_const' {P : Assoc ℚ} {T : Tr} (h : IsConst T)
    (row row' : List ℚ) : rowExpr P row T = rowExpr P row' T := by
  rw [← rowExpr_const (ip := .LINEAR) (D := []) h row 0, rowExpr_const h row' 0]

theorem expr_mix {D : List (List ℚ)} {P : Assoc ℚ} {t w : ℚ} {r1 r2 : List ℚ}
    (h : ∀ g : List ℚ → ℚ, interp .LINEAR (colf g D) t = some ((1 - w) * g r1 + w * g r2)) {T : Tr}
    (hT : IsAffine T) :
    expr .LINEAR D P T t = (1 - w) * rowExpr P r1 T + w * rowExpr P r2 T := by
  induction T with
  | sig _ v m _ =>
    have := h fun row => row.getD ((m.lookup v).getD 0) 0
    simp only [expr, rowExpr, trace, column]
    rw [show (D.map fun row => (row.getD 0 0, row.getD ((m.lookup v).getD 0) 0)) =
      colf (fun row => row.getD ((m.lookup v).getD 0) 0) D from rfl, this]
    rfl
  | const => simp only [expr, rowExpr]; ring
  | abs _ c _ =>
    rw [rowExpr_const (T := .abs _ c) (by exact hT) r1, rowExpr_const' (T := .abs _ c) (by exact hT) r2 r1]
    ring
  | plus _ l r h1 h2 | minus _ l r h1 h2 =>
    simp only [expr, rowExpr, h1 hT.1, h2 hT.2]
    ring
  | mult _ l r h1 h2 =>
    simp only [expr, rowExpr]
    rcases hT with hT | hT
    · rw [h2 hT.2, rowExpr_const hT.1 r1, rowExpr_const' hT.1 r2 r1]
      ring
    · rw [h1 hT.1, rowExpr_const hT.2 r1, rowExpr_const' hT.2 r2 r1]
      ring
  | _ => exact hT.elim

theorem IsLeaf.affine {T : Tr} (h : IsLeaf T) : IsAffine T := by
  cases T <;> trivial

/-- If the atoms are close in every row they are close at every time. -/
theorem atomsNear_of_sampled {n : ℕ} {d : ℚ} {D D' : List (List ℚ)} {P : Assoc ℚ}
    (hD : WellShaped n D) (hD' : WellShaped n D') (ht : D.map rowTime = D'.map rowTime) :
    ∀ {T : Tr} (s e : ℚ), (∀ row, D.head? = some row → rowTime row ≤ s) → D ≠ [] →
    IsFormula n P T → AffineAtoms T → SampledNear d D D' P T → AtomsNear .LINEAR d D D' P s e T := by
  intro T
  induction T with
  | atom st k l r =>
    intro s e hs hne _ ha hn t h1 h2
    have hhead : ∀ row, D.head? = some row → rowTime row ≤ t := fun row hr => (hs row hr).trans h1
    have hhead' : ∀ row, D'.head? = some row → rowTime row ≤ t := by
      intro row hr
      cases D with
      | nil => exact absurd rfl hne
      | cons a D =>
        cases D' with
        | nil => simp at ht
        | cons b D' =>
          simp only [List.map_cons, List.cons.injEq] at ht
          simp only [List.head?_cons, Option.some.injEq] at hr
          rw [← hr, ← ht.1]
          exact hhead a rfl
    have hne' : D' ≠ [] := by
      rintro rfl
      simp at ht
      exact hne ht
    obtain ⟨i1, i2, r1, r2, i3, i4, i5⟩ := mixAt_spec t D hne hD.inc hhead
    obtain ⟨j1, j2, q1, q2, j3, j4, j5⟩ := mixAt_spec t D' hne' hD'.inc hhead'
    rw [← ht] at j1 j2 j3 j4 j5
    rw [expr_mix i5 ha.1, expr_mix i5 ha.2, expr_mix j5 ha.1, expr_mix j5 ha.2]
    set w := (mixAt t (D.map rowTime)).2.2
    have m1 := abs_le.1 (hn (r1, q1) (List.mem_of_getElem? (List.getElem?_zip_eq_some.2 ⟨i3, j3⟩)))
    have m2 := abs_le.1 (hn (r2, q2) (List.mem_of_getElem? (List.getElem?_zip_eq_some.2 ⟨i4, j4⟩)))
    simp only at m1 m2
    rw [abs_le]
    cases k <;> simp only [margin] at m1 m2 ⊢ <;> constructor <;> nlinarith [m1.1, m1.2, m2.1, m2.2]
  | not _ c ih => exact fun s e hs hne hF ha hn => ih s e hs hne hF ha hn
  | and _ l r h1 h2 | or _ l r h1 h2 | implies _ l r h1 h2 =>
    exact fun s e hs hne hF ha hn => ⟨h1 s e hs hne hF.1 ha.1 hn.1, h2 s e hs hne hF.2 ha.2 hn.2⟩
  | ev _ I c ih | alw _ I c ih =>
    exact fun s e hs hne hF ha hn => ih _ _ (fun row hr => (hs row hr).trans (by linarith [hF.1])) hne
      hF.2.2 ha hn
  | _ => intro s e hs hne hF; exact hF.elim

theorem plain_affine : ∀ {T : Tr}, PlainAtoms T → AffineAtoms T := by
  intro T
  induction T with
  | atom => exact fun h => ⟨IsLeaf.affine h.1, IsLeaf.affine h.2⟩
  | not _ c ih | ev _ _ c ih | alw _ _ c ih => exact fun h => ih h
  | and _ l r h1 h2 | or _ l r h1 h2 | implies _ l r h1 h2 | untl _ l _ r h1 h2 =>
    exact fun h => ⟨h1 h.1, h2 h.2⟩
  | _ => exact fun h => h.elim

theorem atomsOk_affine {n : ℕ} {D : List (List ℚ)} {P : Assoc ℚ} : ∀ {T : Tr} (s e : ℚ),
    IsFormula n P T → AtomsOk D P s e T → AffineAtoms T := by
  intro T
  induction T with
  | atom =>
    rintro s e _ (h | h)
    · exact ⟨IsLeaf.affine h.1, IsLeaf.affine h.2⟩
    · exact ⟨h.1, h.2.1⟩
  | not _ c ih => exact fun s e hF h => ih s e hF h
  | ev _ _ c ih | alw _ _ c ih => exact fun s e hF h => ih _ _ hF.2.2 h
  | and _ l r h1 h2 | or _ l r h1 h2 | implies _ l r h1 h2 =>
    exact fun s e hF h => ⟨h1 s e hF.1 h.1, h2 s e hF.2 h.2⟩
  | _ => exact fun s e hF => hF.elim

/-- Atoms that are within `±B` in every row are so at every time. -/
theorem trace_abs {n : ℕ} {K : ℚ} {D : List (List ℚ)} {P : Assoc ℚ} (hD : WellShaped n D)
    {s : ℚ} (hs : ∀ row, D.head? = some row → rowTime row ≤ s) (hne : D ≠ []) {k : Cmp} {l r : Tr}
    (ha : IsAffine l ∧ IsAffine r)
    (hK : ∀ row ∈ D, |margin k (rowExpr P row l) (rowExpr P row r)| ≤ K) (t : ℚ) (ht : s ≤ t) :
    -K ≤ margin k (expr .LINEAR D P l t) (expr .LINEAR D P r t) ∧
      margin k (expr .LINEAR D P l t) (expr .LINEAR D P r t) ≤ K := by
  obtain ⟨i1, i2, r1, r2, i3, i4, i5⟩ := mixAt_spec t D hne hD.inc fun row hr => (hs row hr).trans ht
  rw [expr_mix i5 ha.1, expr_mix i5 ha.2]
  set w := (mixAt t (D.map rowTime)).2.2
  have m1 := abs_le.1 (hK r1 (List.mem_of_getElem? i3))
  have m2 := abs_le.1 (hK r2 (List.mem_of_getElem? i4))
  cases k <;> simp only [margin] at m1 m2 ⊢ <;> constructor <;> nlinarith [m1.1, m1.2, m2.1, m2.2]

/-! ## Rows past the horizon -/

theorem interp_upto (ip : Interpol) {q : ℚ × ℚ} {A A' : List (ℚ × ℚ)} {t : ℚ} (ht : t ≤ q.1)
    (h1 : ∀ p ∈ A, q.1 < p.1) (h2 : ∀ p ∈ A', q.1 < p.1) :
    ∀ P : List (ℚ × ℚ), interp ip (P ++ q :: A) t = interp ip (P ++ q :: A') t := by
  have key : ∀ B : List (ℚ × ℚ), (∀ p ∈ B, q.1 < p.1) →
      interp ip (q :: B) t = if q.1 ≤ t then some q.2 else none := by
    intro B hB
    cases B with
    | nil => rfl
    | cons b B =>
      have hb := hB b (by simp)
      simp only [interp]
      by_cases h : t < q.1
      · rw [if_pos h, if_neg (not_le.2 h)]
      · have e : t = q.1 := le_antisymm ht (not_lt.1 h)
        rw [if_neg h, if_pos (e ▸ hb), if_pos (not_lt.1 h)]
        subst e
        cases ip <;> simp
  intro P
  induction P with
  | nil => rw [List.nil_append, List.nil_append, key A h1, key A' h2]
  | cons p P ih =>
    cases P with
    | nil =>
      simp only [List.cons_append, List.nil_append, interp] at ih ⊢
      rw [ih]
    | cons p' P =>
      simp only [List.cons_append, interp] at ih ⊢
      rw [ih]

theorem Spec.SameUntil.symm {K : ℚ} {D D' : List (List ℚ)} (h : SameUntil K D D') : SameUntil K D' D := by
  obtain ⟨P, r, S, S', h1, h2, h3⟩ := h
  exact ⟨P, r, S', S, h2, h1, h3⟩

theorem Spec.WellShaped.later {n : ℕ} {P S : List (List ℚ)} {r : List ℚ} (h : WellShaped n (P ++ r :: S)) :
    ∀ row ∈ S, rowTime r < rowTime row := by
  have := h.inc
  rw [List.map_append, List.pairwise_append, List.map_cons, List.pairwise_cons] at this
  exact fun row hr => this.2.1.1 _ (List.mem_map_of_mem hr)

theorem trace_upto {n n' : ℕ} {ip : Interpol} {K : ℚ} {D D' : List (List ℚ)} (h : WellShaped n D)
    (h' : WellShaped n' D') (hs : SameUntil K D D') (i : ℕ) {t : ℚ} (ht : t ≤ K) :
    trace ip D i t = trace ip D' i t := by
  obtain ⟨P, r, S, S', rfl, rfl, ⟨u, h3, h4⟩⟩ := hs
  unfold trace column
  have hu : rowTime r = u := by cases r <;> simp_all [rowTime]
  rw [List.map_append, List.map_append, List.map_cons, List.map_cons, interp_upto]
  · show t ≤ rowTime r
    rw [hu]; exact ht.trans h4
  · intro p hp
    obtain ⟨row, hr, rfl⟩ := List.mem_map.1 hp
    exact h.later row hr
  · intro p hp
    obtain ⟨row, hr, rfl⟩ := List.mem_map.1 hp
    exact h'.later row hr

theorem expr_upto {ip : Interpol} {K : ℚ} {D D' : List (List ℚ)} {P : Assoc ℚ}
    (hs : ∀ i t, t ≤ K → trace ip D i t = trace ip D' i t) {T : Tr} {t : ℚ} (ht : t ≤ K) :
    expr ip D P T t = expr ip D' P T t := by
  induction T with
  | sig => simp only [expr, hs _ _ ht]
  | abs _ c ih => simp only [expr, ih]
  | plus _ l r h1 h2 | minus _ l r h1 h2 | mult _ l r h1 h2 => simp only [expr, h1, h2]
  | _ => rfl

theorem rob_upto {n : ℕ} {ip : Interpol} {K : ℚ} {D D' : List (List ℚ)} {P : Assoc ℚ}
    (hs : ∀ i t, t ≤ K → trace ip D i t = trace ip D' i t) : ∀ {T : Tr} {t : ℚ},
    IsFormula n P T → t + reach P T ≤ K → rob ip D P T t = rob ip D' P T t := by
  intro T
  induction T with
  | atom st k l r =>
    intro t _ ht
    simp only [reach, add_zero] at ht
    simp only [rob, expr_upto hs ht]
  | not _ c ih => intro t hF ht; simp only [rob, ih hF ht]
  | and _ l r h1 h2 | or _ l r h1 h2 | implies _ l r h1 h2 =>
    intro t hF ht
    simp only [reach] at ht
    simp only [rob, h1 (t := t) hF.1 (by linarith [le_max_left (reach P l) (reach P r)]),
      h2 (t := t) hF.2 (by linarith [le_max_right (reach P l) (reach P r)])]
  | ev _ I c ih =>
    intro t hF ht
    simp only [reach] at ht
    simp only [rob]
    exact iSup_congr fun r => iSup_congr fun hr => ih hF.2.2 (by linarith [hr.2])
  | alw _ I c ih =>
    intro t hF ht
    simp only [reach] at ht
    simp only [rob]
    exact iInf_congr fun r => iInf_congr fun hr => ih hF.2.2 (by linarith [hr.2])
  | _ => intro t hF; exact hF.elim

theorem atomsWithin_upto {n : ℕ} {ip : Interpol} {B K : ℚ} {D D' : List (List ℚ)} {P : Assoc ℚ}
    (hs : ∀ i t, t ≤ K → trace ip D i t = trace ip D' i t) : ∀ {T : Tr} {s e : ℚ},
    IsFormula n P T → e + reach P T ≤ K → AtomsWithin ip B D P s e T → AtomsWithin ip B D' P s e T := by
  intro T
  induction T with
  | atom st k l r =>
    intro s e _ ht h t h1 h2
    simp only [reach, add_zero] at ht
    rw [← expr_upto hs (h2.trans ht), ← expr_upto hs (h2.trans ht)]
    exact h t h1 h2
  | not _ c ih => exact fun hF ht h => ih hF ht h
  | and _ l r h1 h2 | or _ l r h1 h2 | implies _ l r h1 h2 =>
    intro s e hF ht h
    simp only [reach] at ht
    exact ⟨h1 hF.1 (by linarith [le_max_left (reach P l) (reach P r)]) h.1,
      h2 hF.2 (by linarith [le_max_right (reach P l) (reach P r)]) h.2⟩
  | ev _ I c ih | alw _ I c ih =>
    intro s e hF ht h
    simp only [reach] at ht
    exact ih hF.2.2 (by linarith) h
  | _ => intro s e hF; exact hF.elim

theorem bends_upto {f f' : ℚ → EReal} {s c e : ℚ} (h : ∀ t, t ≤ e → f t = f' t)
    (hb : Bends f s c e) : Bends f' s c e :=
  fun r v d h1 h2 h3 => hb r v d h1 h2 fun t h4 h5 => (h t h5).trans (h3 t h4 h5)

theorem marked_upto {K u w : ℚ} {D D' : List (List ℚ)}
    (hr : ∀ t, t ≤ K → RowAt D t → RowAt D' t) (hw : w ≤ K) :
    ∀ {T : Tr}, Marked D u w T → Marked D' u w T := by
  intro T
  induction T with
  | atom =>
    rintro ⟨row, h1, t, h2, h3, h4⟩
    obtain ⟨row', h5, h6⟩ := hr t (h4.trans hw) ⟨row, h1, h2⟩
    exact ⟨row', h5, t, h6, h3, h4⟩
  | not _ c ih => exact ih
  | and | or | implies => exact fun _ => trivial
  | _ => exact fun h => h.elim

theorem noLongSlope_upto {n : ℕ} {ip : Interpol} {K : ℚ} {D D' : List (List ℚ)} {P : Assoc ℚ}
    (hs : ∀ i t, t ≤ K → trace ip D i t = trace ip D' i t)
    (hr : ∀ t, t ≤ K → RowAt D t → RowAt D' t) : ∀ {T : Tr} {s e : ℚ},
    IsFormula n P T → e + reach P T ≤ K → NoLongSlope ip D P s e T → NoLongSlope ip D' P s e T := by
  intro T
  induction T with
  | not _ c ih => exact fun hF ht h => ih hF ht h
  | and _ l r h1 h2 | or _ l r h1 h2 | implies _ l r h1 h2 =>
    intro s e hF ht h
    simp only [reach] at ht
    exact ⟨h1 hF.1 (by linarith [le_max_left (reach P l) (reach P r)]) h.1,
      h2 hF.2 (by linarith [le_max_right (reach P l) (reach P r)]) h.2⟩
  | ev _ I c ih | alw _ I c ih =>
    intro s e hF ht h
    simp only [reach] at ht
    have := reach_nonneg hF.2.2
    exact ⟨ih hF.2.2 (by linarith) h.1, fun a b => (h.2 a b).imp (marked_upto hr (by linarith))
      (bends_upto fun t h => rob_upto hs hF.2.2 (by linarith))⟩
  | atom => exact fun _ _ h => h
  | _ => intro s e hF; exact hF.elim

theorem rowAt_upto {n : ℕ} {K t : ℚ} {D D' : List (List ℚ)} (h : WellShaped n D)
    (hs : SameUntil K D D') (ht : t ≤ K) (hr : RowAt D t) : RowAt D' t := by
  obtain ⟨P, r, S, S', rfl, rfl, ⟨u, h3, h4⟩⟩ := hs
  have hu : rowTime r = u := by cases r <;> simp_all [rowTime]
  obtain ⟨row, h5, h6⟩ := hr
  rw [List.mem_append, List.mem_cons] at h5
  rcases h5 with h5 | rfl | h5
  · exact ⟨row, by simp [h5], h6⟩
  · exact ⟨row, by simp, h6⟩
  · have := h.later row h5
    have e : rowTime row = t := by cases row <;> simp_all [rowTime]
    linarith

theorem atomsOk_upto {n : ℕ} {K : ℚ} {D D' : List (List ℚ)} {P : Assoc ℚ} (h : WellShaped n D)
    (hs : SameUntil K D D') : ∀ {T : Tr} {s e : ℚ},
    IsFormula n P T → e + reach P T ≤ K → AtomsOk D P s e T → AtomsOk D' P s e T := by
  intro T
  induction T with
  | atom st k l r =>
    intro s e _ ht h'
    simp only [reach, add_zero] at ht
    exact h'.imp id fun h' => ⟨h'.1, h'.2.1, h'.2.2.imp id (rowAt_upto h hs ht)⟩
  | not _ c ih => exact fun hF ht h => ih hF ht h
  | and _ l r h1 h2 | or _ l r h1 h2 | implies _ l r h1 h2 =>
    intro s e hF ht h
    simp only [reach] at ht
    exact ⟨h1 hF.1 (by linarith [le_max_left (reach P l) (reach P r)]) h.1,
      h2 hF.2 (by linarith [le_max_right (reach P l) (reach P r)]) h.2⟩
  | ev _ I c ih | alw _ I c ih =>
    intro s e hF ht h
    simp only [reach] at ht
    exact ih hF.2.2 (by linarith) h
  | _ => intro s e hF; exact hF.elim

theorem covers_upto {n : ℕ} {s e : ℚ} {D D' : List (List ℚ)} (h' : WellShaped n D')
    (hs : SameUntil e D D') (h : Covers D s e) : Covers D' s e := by
  obtain ⟨P, r, S, S', rfl, rfl, ⟨u, h3, h4⟩⟩ := hs
  constructor
  · obtain ⟨row, t, h1, h2⟩ := h.1
    refine ⟨row, t, ?_, h2⟩
    cases P with
    | nil => simpa using h1
    | cons => simpa using h1
  · have hu : rowTime r = u := by cases r <;> simp_all [rowTime]
    rcases List.eq_nil_or_concat S' with rfl | ⟨S'', q, rfl⟩
    · exact ⟨r, u, by simp, h3, h4⟩
    · have h5 := h'.later q (by simp)
      have h6 : q.length = n + 1 := h'.1 q (by simp)
      refine ⟨q, rowTime q, by simp [List.getLast?_cons], ?_, by linarith⟩
      cases q with
      | nil => simp at h6
      | cons => rfl

theorem Spec.Ready.upto {ip : Interpol} {n : ℕ} {B : ℚ} {m : Monitor} {T : Tr} {s e : ℚ}
    (h : Ready ip n B m T s e) {D' : List (List ℚ)} (h' : WellShaped n D')
    (hs : SameUntil (e + reach m.params T) m.data D') :
    Ready ip n B { m with data := D' } T s e :=
  ⟨h.formula, h.sem, h.interpol, h.names, h', h.shape,
    atomsWithin_upto (fun i _ ht => trace_upto h.rows h' hs i ht) h.shape le_rfl h.within, h.start,
    h.stop, covers_upto h' hs h.covers⟩

/-! ## Formulas whose inner temporal operators have Boolean operands -/

theorem isBoolean_not_atom {T : Tr} (h : IsBoolean T) : ¬ IsAtom T := by
  cases T <;> simp_all [IsBoolean, IsAtom]

theorem isBoolean_marked {D : List (List ℚ)} {u w : ℚ} {T : Tr} (h : IsBoolean T) : Marked D u w T := by
  induction T with
  | not _ c ih => exact ih h
  | and | or | implies => trivial
  | _ => exact h.elim

theorem slope_joined {ip : Interpol} {D : List (List ℚ)} {P : Assoc ℚ} {n : ℕ} :
    ∀ {T : Tr} {i : Bool} {s e : ℚ}, IsFormula n P T → Joined i T → (i = false → s = e) →
      NoLongSlope ip D P s e T ∧ Untrimmed P s e T := by
  intro T
  induction T with
  | atom => exact fun _ _ _ => ⟨trivial, trivial⟩
  | not _ c ih => exact fun hF h hi => ih hF h hi
  | and _ l r h1 h2 | or _ l r h1 h2 | implies _ l r h1 h2 =>
    intro i s e hF h hi
    have a1 := h1 hF.1 h.1 hi
    have a2 := h2 hF.2 h.2 hi
    exact ⟨⟨a1.1, a2.1⟩, a1.2, a2.2⟩
  | ev _ I c ih =>
    intro i s e ⟨ha, hab, hF⟩ ⟨hc, hb⟩ hi
    obtain ⟨h1, h2⟩ := ih (s := s + bound P I.beginStr I.begin)
      (e := e + bound P I.stopStr I.stop) hF hc (fun h => nomatch h)
    cases i with
    | true =>
      exact ⟨⟨h1, fun _ _ => Or.inl (isBoolean_marked (hb rfl))⟩, h2,
        fun h => absurd h (isBoolean_not_atom (hb rfl))⟩
    | false =>
      obtain rfl := hi rfl
      exact ⟨⟨h1, fun h => absurd h (lt_irrefl _)⟩, h2, fun _ => by linarith⟩
  | alw _ I c ih =>
    intro i s e ⟨ha, hab, hF⟩ ⟨hc, hb⟩ hi
    obtain ⟨h1, h2⟩ := ih (s := s + bound P I.beginStr I.begin)
      (e := e + bound P I.stopStr I.stop) hF hc (fun h => nomatch h)
    cases i with
    | true => exact ⟨⟨h1, fun _ _ => Or.inl (isBoolean_marked (hb rfl))⟩, h2⟩
    | false =>
      obtain rfl := hi rfl
      exact ⟨⟨h1, fun h => absurd h (lt_irrefl _)⟩, h2⟩
  | untl => intro _ _ _ _ h; exact h.elim
  | _ => intro _ _ _ h; exact h.elim

end STLRom
