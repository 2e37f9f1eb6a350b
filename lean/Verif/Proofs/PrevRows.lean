import Verif.Proofs.Mono
import Verif.Spec.Select

/-!
# Margins of piecewise constant signals

With PREVIOUS interpolation the margin of a comparison at a time is that in a row.
-/

namespace STLRom
open Signal Spec

section
variable {n : ℕ} {P : Assoc ℚ}

theorem atom_near_prev {D D' : List (List ℚ)} {k : Cmp} {l r : Tr} {t d : ℚ}
    (ht : D.map rowTime = D'.map rowTime) (hne : D ≠ [])
    (h0 : ∀ row, D.head? = some row → rowTime row ≤ t) (hl : IsExpr n l) (hr : IsExpr n r)
    (hs : ∀ row ∈ D.zip D', |margin k (rowExpr P row.1 l) (rowExpr P row.1 r) -
      margin k (rowExpr P row.2 l) (rowExpr P row.2 r)| ≤ d) :
    |margin k (expr .PREVIOUS D P l t) (expr .PREVIOUS D P r t) -
      margin k (expr .PREVIOUS D' P l t) (expr .PREVIOUS D' P r t)| ≤ d := by
  have hne' : D' ≠ [] := by rintro rfl; simp at ht; exact hne ht
  obtain ⟨r1, i1, j1⟩ := mixAt_prev t D hne h0
  obtain ⟨r2, i2, j2⟩ := mixAt_prev t D' hne' (heads_le ht h0)
  rw [← ht] at i2
  rw [expr_prevRow j1 hl, expr_prevRow j1 hr, expr_prevRow j2 hl, expr_prevRow j2 hr]
  exact hs (r1, r2) (List.mem_of_getElem? (List.getElem?_zip_eq_some.2 ⟨i1, i2⟩))

theorem atomsNear_previous {D D' : List (List ℚ)} {d : ℚ} (ht : D.map rowTime = D'.map rowTime) (hne : D ≠ []) :
    ∀ {T : Tr} (s e : ℚ), (∀ row, D.head? = some row → rowTime row ≤ s) →
    IsFormula n P T → SampledNear d D D' P T → AtomsNear .PREVIOUS d D D' P s e T := by
  intro T
  induction T with
  | atom st k l r =>
    intro s e h0 hF hs t h1 _
    exact atom_near_prev ht hne (fun row hr => (h0 row hr).trans h1) hF.1 hF.2 hs
  | not _ c ih => exact fun s e h0 hF hs => ih s e h0 hF hs
  | and _ l r i j | or _ l r i j | implies _ l r i j =>
    exact fun s e h0 hF hs => ⟨i s e h0 hF.1 hs.1, j s e h0 hF.2 hs.2⟩
  | ev _ _ c ih | alw _ _ c ih =>
    exact fun s e h0 hF hs => ih _ _ (fun row hr => (h0 row hr).trans (by linarith [hF.1])) hF.2.2 hs
  | _ => exact fun s e h0 hF => hF.elim

/-- Margins within the bounds in every row are within the bounds at all times. -/
theorem atomsWithin_previous {B : ℚ} {D : List (List ℚ)} (hne : D ≠ []) :
    ∀ {T : Tr} (s e : ℚ), (∀ row, D.head? = some row → rowTime row ≤ s) →
    IsFormula n P T → (∀ x, MarginOf D P T x → -B ≤ x ∧ x ≤ B) → AtomsWithin .PREVIOUS B D P s e T := by
  intro T
  induction T with
  | atom st k l r =>
    intro s e h0 hF hs t h1 _
    obtain ⟨r1, i1, j1⟩ := mixAt_prev t D hne fun row hr => (h0 row hr).trans h1
    rw [expr_prevRow j1 hF.1, expr_prevRow j1 hF.2]
    exact hs _ ⟨r1, List.mem_of_getElem? i1, rfl⟩
  | not _ c ih => exact fun s e h0 hF hs => ih s e h0 hF hs
  | and _ l r i j | or _ l r i j | implies _ l r i j =>
    exact fun s e h0 hF hs => ⟨i s e h0 hF.1 fun x h => hs x (Or.inl h), j s e h0 hF.2 fun x h => hs x (Or.inr h)⟩
  | ev _ _ c ih | alw _ _ c ih =>
    exact fun s e h0 hF hs => ih _ _ (fun row hr => (h0 row hr).trans (by linarith [hF.1])) hF.2.2 hs
  | _ => exact fun s e h0 hF => hF.elim

end
end STLRom
