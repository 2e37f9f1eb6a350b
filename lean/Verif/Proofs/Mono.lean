import Verif.Spec.Mono
import Verif.Proofs.StlFacts

/-!
# Robustness is monotone in the margins of the comparisons
-/

namespace STLRom
open Spec

/-- `a ≤ b`, or the other way round. -/
def LeIf (p : Bool) (a b : EReal) : Prop := if p then a ≤ b else b ≤ a

theorem leIf_neg {p : Bool} {a b : EReal} (h : LeIf (!p) a b) : LeIf p (-a) (-b) := by
  cases p <;> simp only [LeIf, Bool.not_true, Bool.not_false, if_true, Bool.false_eq_true, if_false] at *
  · exact EReal.neg_le_neg_iff.2 h
  · exact EReal.neg_le_neg_iff.2 h

theorem leIf_inf {p : Bool} {a b c d : EReal} (h : LeIf p a b) (h' : LeIf p c d) :
    LeIf p (a ⊓ c) (b ⊓ d) := by
  cases p
  · exact inf_le_inf (show b ≤ a from h) (show d ≤ c from h')
  · exact inf_le_inf (show a ≤ b from h) (show c ≤ d from h')

theorem leIf_sup {p : Bool} {a b c d : EReal} (h : LeIf p a b) (h' : LeIf p c d) :
    LeIf p (a ⊔ c) (b ⊔ d) := by
  cases p
  · exact sup_le_sup (show b ≤ a from h) (show d ≤ c from h')
  · exact sup_le_sup (show a ≤ b from h) (show c ≤ d from h')

theorem leIf_iSup {p : Bool} {S : Set ℚ} {f g : ℚ → EReal} (h : ∀ r ∈ S, LeIf p (f r) (g r)) :
    LeIf p (⨆ r ∈ S, f r) (⨆ r ∈ S, g r) := by
  cases p
  · exact iSup₂_mono fun r hr => (h r hr : g r ≤ f r)
  · exact iSup₂_mono fun r hr => (h r hr : f r ≤ g r)

theorem leIf_iInf {p : Bool} {S : Set ℚ} {f g : ℚ → EReal} (h : ∀ r ∈ S, LeIf p (f r) (g r)) :
    LeIf p (⨅ r ∈ S, f r) (⨅ r ∈ S, g r) := by
  cases p
  · exact iInf₂_mono fun r hr => (h r hr : g r ≤ f r)
  · exact iInf₂_mono fun r hr => (h r hr : f r ≤ g r)

theorem leIf_refl {p : Bool} (a : EReal) : LeIf p a a := by
  cases p <;> exact le_refl a

/-- As `SampledUp`, at all times from `s` on. -/
def AtomsUp (ip : Interpol) (D D' : List (List ℚ)) (P : Assoc ℚ) (s : ℚ) : Bool → Tr → Prop
  | p, .atom st k l r => ∀ t, s ≤ t → LeIf p (rob ip D P (.atom st k l r) t) (rob ip D' P (.atom st k l r) t)
  | p, .not _ c => AtomsUp ip D D' P s (!p) c
  | p, .and _ l r | p, .or _ l r | p, .untl _ l _ r => AtomsUp ip D D' P s p l ∧ AtomsUp ip D D' P s p r
  | p, .implies _ l r => AtomsUp ip D D' P s (!p) l ∧ AtomsUp ip D D' P s p r
  | p, .ev _ _ c | p, .alw _ _ c => AtomsUp ip D D' P s p c
  | _, _ => True

/-- No window begins in the past. -/
def Onward (P : Assoc ℚ) : Tr → Prop
  | .not _ c => Onward P c
  | .and _ l r | .or _ l r | .implies _ l r => Onward P l ∧ Onward P r
  | .ev _ I c | .alw _ I c => 0 ≤ bound P I.beginStr I.begin ∧ Onward P c
  | .untl _ l I r => 0 ≤ bound P I.beginStr I.begin ∧ Onward P l ∧ Onward P r
  | _ => True

theorem Spec.IsFormula.onward {n : ℕ} {P : Assoc ℚ} : ∀ {T : Tr}, IsFormula n P T → Onward P T := by
  intro T
  induction T with
  | not _ c ih => exact fun h => ih h
  | and _ l r h1 h2 | or _ l r h1 h2 | implies _ l r h1 h2 => exact fun h => ⟨h1 h.1, h2 h.2⟩
  | ev _ I c ih | alw _ I c ih => exact fun h => ⟨h.1, ih h.2.2⟩
  | untl => exact fun h => h.elim
  | _ => exact fun _ => trivial

theorem Spec.UntilOutside.onward {n : ℕ} {P : Assoc ℚ} : ∀ {T : Tr}, UntilOutside n P T → Onward P T := by
  intro T
  induction T with
  | not _ c ih => exact fun h => ih h
  | and _ l r h1 h2 | or _ l r h1 h2 | implies _ l r h1 h2 => exact fun h => ⟨h1 h.1, h2 h.2⟩
  | ev _ I c ih | alw _ I c ih => exact fun h => IsFormula.onward (n := n) h
  | untl _ l I r h1 h2 => exact fun h => ⟨h.1, h.2.2.1.onward, h.2.2.2.onward⟩
  | _ => exact fun _ => trivial

theorem rob_up {ip : Interpol} {D D' : List (List ℚ)} {P : Assoc ℚ} {s : ℚ} : ∀ {T : Tr} {p : Bool},
    AtomsUp ip D D' P s p T → Onward P T → ∀ t, s ≤ t → LeIf p (rob ip D P T t) (rob ip D' P T t) := by
  intro T
  induction T with
  | atom st k l r => exact fun h _ t ht => h t ht
  | not st c ih => exact fun h hF t ht => leIf_neg (ih h hF t ht)
  | and st l r ih1 ih2 => exact fun h hF t ht => leIf_inf (ih1 h.1 hF.1 t ht) (ih2 h.2 hF.2 t ht)
  | or st l r ih1 ih2 => exact fun h hF t ht => leIf_sup (ih1 h.1 hF.1 t ht) (ih2 h.2 hF.2 t ht)
  | implies st l r ih1 ih2 =>
    exact fun h hF t ht => leIf_sup (leIf_neg (ih1 h.1 hF.1 t ht)) (ih2 h.2 hF.2 t ht)
  | ev st I c ih =>
    exact fun h hF t ht => leIf_iSup fun r hr => ih h hF.2 r (by linarith [hr.1, hF.1])
  | alw st I c ih =>
    exact fun h hF t ht => leIf_iInf fun r hr => ih h hF.2 r (by linarith [hr.1, hF.1])
  | untl st l I r ih1 ih2 =>
    exact fun h hF t ht => leIf_iSup fun u hu => leIf_inf (ih2 h.2 hF.2.2 u (by linarith [hu.1, hF.1]))
      (leIf_iInf fun w hw => ih1 h.1 hF.2.1 w (by linarith [hw.1]))
  | _ => exact fun _ _ t _ => leIf_refl _

theorem robBound_up {B : ℚ} {D D' : List (List ℚ)} {P : Assoc ℚ} {s0 : ℚ} (hl : lastTime D = lastTime D') :
    ∀ {T : Tr} {p q : Bool} {s e : ℚ}, AtomsUp .LINEAR D D' P s0 p T → Onward P T →
    ∀ t, s0 ≤ t → LeIf p (robBound .LINEAR B D P q s e T t) (robBound .LINEAR B D' P q s e T t) := by
  intro T
  induction T with
  | atom st k l r =>
    intro p q s e h _ t ht
    simp only [robBound, ← hl]
    split_ifs
    · exact leIf_refl _
    · exact leIf_refl _
    · exact h t ht
  | not st c ih => exact fun h hF t ht => leIf_neg (ih h hF t ht)
  | and st l r ih1 ih2 => exact fun h hF t ht => leIf_inf (ih1 h.1 hF.1 t ht) (ih2 h.2 hF.2 t ht)
  | or st l r ih1 ih2 => exact fun h hF t ht => leIf_sup (ih1 h.1 hF.1 t ht) (ih2 h.2 hF.2 t ht)
  | implies st l r ih1 ih2 =>
    exact fun h hF t ht => leIf_sup (leIf_neg (ih1 h.1 hF.1 t ht)) (ih2 h.2 hF.2 t ht)
  | ev st I c ih =>
    intro p q s e h hF t ht
    simp only [robBound, ← hl]
    split_ifs
    · exact leIf_refl _
    · exact leIf_iSup fun r hr => ih h hF.2 r (by linarith [hr.1, hF.1])
  | alw st I c ih =>
    intro p q s e h hF t ht
    simp only [robBound, ← hl]
    split_ifs
    · exact leIf_refl _
    · exact leIf_iInf fun r hr => ih h hF.2 r (by linarith [hr.1, hF.1])
  | _ => exact fun _ _ t _ => leIf_refl _

/-! ## From the rows to all times -/

theorem mixAt_prev (t : ℚ) : ∀ (D : List (List ℚ)), D ≠ [] →
    (∀ row, D.head? = some row → rowTime row ≤ t) →
    ∃ r1, D[(mixAt t (D.map rowTime)).1]? = some r1 ∧
      ∀ g : List ℚ → ℚ, interp .PREVIOUS (colf g D) t = some (g r1)
  | [], h, _ => absurd rfl h
  | [a], _, h => by
    refine ⟨a, by simp [mixAt], fun g => ?_⟩
    have := h a rfl
    simp [colf, interp, this]
  | a :: b :: D, _, h => by
    have ha := h a rfl
    by_cases ht : t < rowTime b
    · refine ⟨a, by simp [mixAt, ht], fun g => ?_⟩
      simp only [colf, List.map_cons, interp, if_neg (not_lt.2 ha), if_pos ht]
    · obtain ⟨r1, i3, i5⟩ := mixAt_prev t (b :: D) (by simp) (by
        intro row hr
        simp only [List.head?_cons, Option.some.injEq] at hr
        rw [← hr]; exact not_lt.1 ht)
      refine ⟨r1, by simpa [mixAt, ht] using i3, fun g => ?_⟩
      rw [← i5 g]
      simp only [colf, List.map_cons, interp, if_neg (not_lt.2 ha), if_neg ht]

theorem expr_prevRow {D : List (List ℚ)} {P : Assoc ℚ} {t : ℚ} {r1 : List ℚ}
    (h : ∀ g : List ℚ → ℚ, interp .PREVIOUS (colf g D) t = some (g r1)) {n : ℕ} {T : Tr}
    (hT : IsExpr n T) : expr .PREVIOUS D P T t = rowExpr P r1 T := by
  induction T with
  | sig _ v m _ =>
    have := h fun row => row.getD ((m.lookup v).getD 0) 0
    simp only [expr, rowExpr, trace, column]
    rw [show (D.map fun row => (row.getD 0 0, row.getD ((m.lookup v).getD 0) 0)) =
      colf (fun row => row.getD ((m.lookup v).getD 0) 0) D from rfl, this]
    rfl
  | const => rfl
  | abs _ c ih => simp only [expr, rowExpr, ih hT]
  | plus _ l r h1 h2 | minus _ l r h1 h2 | mult _ l r h1 h2 =>
    simp only [expr, rowExpr, h1 hT.1, h2 hT.2]
  | _ => exact hT.elim

theorem heads_le {D D' : List (List ℚ)} (ht : D.map rowTime = D'.map rowTime) {t : ℚ}
    (h : ∀ row, D.head? = some row → rowTime row ≤ t) : ∀ row, D'.head? = some row → rowTime row ≤ t := by
  intro row hr
  cases D with
  | nil => cases D' with
    | nil => simp at hr
    | cons => simp at ht
  | cons a D =>
    cases D' with
    | nil => simp at ht
    | cons b D' =>
      simp only [List.map_cons, List.cons.injEq] at ht
      simp only [List.head?_cons, Option.some.injEq] at hr
      rw [← hr, ← ht.1]
      exact h a rfl

/-- The comparison of one atom, LINEAR interpolation. -/
theorem atom_raised {n : ℕ} {D D' : List (List ℚ)} {P : Assoc ℚ} (hD : WellShaped n D) (hD' : WellShaped n D')
    (ht : D.map rowTime = D'.map rowTime) (hne : D ≠ []) {t : ℚ}
    (h0 : ∀ row, D.head? = some row → rowTime row ≤ t) {k : Cmp} {l r : Tr} (hl : IsAffine l)
    (hr : IsAffine r) (h : ∀ row ∈ D.zip D', margin k (rowExpr P row.1 l) (rowExpr P row.1 r) ≤
      margin k (rowExpr P row.2 l) (rowExpr P row.2 r)) :
    margin k (expr .LINEAR D P l t) (expr .LINEAR D P r t) ≤
      margin k (expr .LINEAR D' P l t) (expr .LINEAR D' P r t) := by
  have hne' : D' ≠ [] := by
    rintro rfl
    simp at ht
    exact hne ht
  obtain ⟨i1, i2, r1, r2, i3, i4, i5⟩ := mixAt_spec t D hne hD.inc h0
  obtain ⟨j1, j2, q1, q2, j3, j4, j5⟩ := mixAt_spec t D' hne' hD'.inc (heads_le ht h0)
  rw [← ht] at j1 j2 j3 j4 j5
  rw [expr_mix i5 hl, expr_mix i5 hr, expr_mix j5 hl, expr_mix j5 hr]
  set w := (mixAt t (D.map rowTime)).2.2
  have m1 := h (r1, q1) (List.mem_of_getElem? (List.getElem?_zip_eq_some.2 ⟨i3, j3⟩))
  have m2 := h (r2, q2) (List.mem_of_getElem? (List.getElem?_zip_eq_some.2 ⟨i4, j4⟩))
  simp only at m1 m2
  have w1 := mul_le_mul_of_nonneg_left m1 (show (0 : ℚ) ≤ 1 - w by linarith)
  have w2 := mul_le_mul_of_nonneg_left m2 i1
  cases k <;> simp only [margin] at w1 w2 ⊢ <;> linarith

/-- The comparison of one atom, PREVIOUS interpolation. -/
theorem atom_raised_prev {n : ℕ} {D D' : List (List ℚ)} {P : Assoc ℚ}
    (ht : D.map rowTime = D'.map rowTime) (hne : D ≠ []) {t : ℚ}
    (h0 : ∀ row, D.head? = some row → rowTime row ≤ t) {k : Cmp} {l r : Tr} (hl : IsExpr n l)
    (hr : IsExpr n r) (h : ∀ row ∈ D.zip D', margin k (rowExpr P row.1 l) (rowExpr P row.1 r) ≤
      margin k (rowExpr P row.2 l) (rowExpr P row.2 r)) :
    margin k (expr .PREVIOUS D P l t) (expr .PREVIOUS D P r t) ≤
      margin k (expr .PREVIOUS D' P l t) (expr .PREVIOUS D' P r t) := by
  have hne' : D' ≠ [] := by
    rintro rfl
    simp at ht
    exact hne ht
  obtain ⟨r1, i3, i5⟩ := mixAt_prev t D hne h0
  obtain ⟨q1, j3, j5⟩ := mixAt_prev t D' hne' (heads_le ht h0)
  rw [← ht] at j3
  rw [expr_prevRow i5 hl, expr_prevRow i5 hr, expr_prevRow j5 hl, expr_prevRow j5 hr]
  exact h (r1, q1) (List.mem_of_getElem? (List.getElem?_zip_eq_some.2 ⟨i3, j3⟩))

theorem zip_swap {D D' : List (List ℚ)} {p : List ℚ → List ℚ → Prop} (h : ∀ row ∈ D.zip D', p row.2 row.1) :
    ∀ row ∈ D'.zip D, p row.1 row.2 := by
  intro row hr
  rw [← List.zip_swap, List.mem_map] at hr
  obtain ⟨q, hq, rfl⟩ := hr
  exact h q hq

theorem atomsUp_linear {n : ℕ} {D D' : List (List ℚ)} {P : Assoc ℚ} (hD : WellShaped n D)
    (hD' : WellShaped n D') (ht : D.map rowTime = D'.map rowTime) (hne : D ≠ []) {s : ℚ}
    (h0 : ∀ row, D.head? = some row → rowTime row ≤ s) :
    ∀ {T : Tr} {p : Bool}, AffineAtoms T → SampledUp D D' P p T → AtomsUp .LINEAR D D' P s p T := by
  intro T
  induction T with
  | atom st k l r =>
    intro p ha hs t hst
    have h0' : ∀ row, D.head? = some row → rowTime row ≤ t := fun row hr => (h0 row hr).trans hst
    cases p
    · refine er_le.2 (atom_raised hD' hD ht.symm ?_ (heads_le ht h0') ha.1 ha.2
        (zip_swap (p := fun a b => margin k (rowExpr P a l) (rowExpr P a r) ≤
          margin k (rowExpr P b l) (rowExpr P b r)) hs))
      rintro rfl
      simp at ht
      exact hne ht
    · exact er_le.2 (atom_raised hD hD' ht hne h0' ha.1 ha.2 hs)
  | not _ c ih => exact fun ha hs => ih ha hs
  | and _ l r h1 h2 | or _ l r h1 h2 | implies _ l r h1 h2 | untl _ l _ r h1 h2 =>
    exact fun ha hs => ⟨h1 ha.1 hs.1, h2 ha.2 hs.2⟩
  | ev _ _ c ih | alw _ _ c ih => exact fun ha hs => ih ha hs
  | _ => exact fun ha _ => ha.elim

theorem atomsUp_previous {n : ℕ} {D D' : List (List ℚ)} {P : Assoc ℚ}
    (ht : D.map rowTime = D'.map rowTime) (hne : D ≠ []) {s : ℚ}
    (h0 : ∀ row, D.head? = some row → rowTime row ≤ s) :
    ∀ {T : Tr} {p : Bool}, IsFormula n P T → SampledUp D D' P p T → AtomsUp .PREVIOUS D D' P s p T := by
  intro T
  induction T with
  | atom st k l r =>
    intro p ha hs t hst
    have h0' : ∀ row, D.head? = some row → rowTime row ≤ t := fun row hr => (h0 row hr).trans hst
    cases p
    · refine er_le.2 (atom_raised_prev ht.symm ?_ (heads_le ht h0') ha.1 ha.2
        (zip_swap (p := fun a b => margin k (rowExpr P a l) (rowExpr P a r) ≤
          margin k (rowExpr P b l) (rowExpr P b r)) hs))
      rintro rfl
      simp at ht
      exact hne ht
    · exact er_le.2 (atom_raised_prev ht hne h0' ha.1 ha.2 hs)
  | not _ c ih => exact fun ha hs => ih ha hs
  | and _ l r h1 h2 | or _ l r h1 h2 | implies _ l r h1 h2 =>
    exact fun ha hs => ⟨h1 ha.1 hs.1, h2 ha.2 hs.2⟩
  | ev _ _ c ih | alw _ _ c ih => exact fun ha hs => ih ha.2.2 hs
  | _ => exact fun ha _ => ha.elim

/-! ## Affine comparisons -/

theorem outside_affine {n : ℕ} {D : List (List ℚ)} {P : Assoc ℚ} {t : ℚ} : ∀ {T : Tr},
    UntilOutside n P T → AtomsOk D P t t T → AffineAtoms T := by
  intro T
  induction T with
  | not _ c ih => exact fun hF h => ih hF h
  | and _ l r h1 h2 | or _ l r h1 h2 | implies _ l r h1 h2 => exact fun hF h => ⟨h1 hF.1 h.1, h2 hF.2 h.2⟩
  | untl _ l I r => exact fun hF h => ⟨atomsOk_affine _ _ hF.2.2.1 h.1, atomsOk_affine _ _ hF.2.2.2 h.2⟩
  | _ => exact fun hF h => atomsOk_affine _ _ (show IsFormula n P _ from hF) h

theorem okTo_affine {n : ℕ} {D : List (List ℚ)} {P : Assoc ℚ} : ∀ {T : Tr} (s e : ℚ),
    IsFormula n P T → AtomsOkTo D P s e T → AffineAtoms T := by
  intro T
  induction T with
  | atom =>
    rintro s e _ (h | h)
    · exact ⟨IsLeaf.affine h.1, IsLeaf.affine h.2⟩
    · exact ⟨h.1, h.2.1⟩
  | not _ c ih => exact fun s e hF h => ih s e hF h
  | ev _ _ c ih | alw _ _ c ih => exact fun s e hF h => ih _ _ hF.2.2 h
  | and _ l r h1 h2 | or _ l r h1 h2 | implies _ l r h1 h2 =>
    exact fun s e hF h => ⟨h1 s e hF.1 h.1, h2 s e hF.2 h.2⟩
  | _ => exact fun s e hF => hF.elim

end STLRom
