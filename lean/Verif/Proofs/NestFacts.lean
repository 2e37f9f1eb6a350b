import Verif.Proofs.UntilFacts
import Verif.Spec.UntilNest
import Verif.Spec.Select

/-!
# Nearness and monotonicity of robustness for formulas with `until` anywhere
-/

namespace STLRom
open Signal Spec

section
variable {n : ℕ} {P : Assoc ℚ} {D D' : List (List ℚ)} {d : ℚ}

/-- Margins that differ by at most `d` give robustness that differs by at most `d`. -/
theorem rob_near_nest {ip : Interpol} : ∀ {T : Tr} (s e : ℚ), IsUntilFormula n P T →
    AtomsNear ip d D D' P s e T → ∀ t, s ≤ t → t ≤ e →
    Near d (rob ip D P T t) (rob ip D' P T t) ∧ Near d (rob ip D' P T t) (rob ip D P T t) := by
  intro T
  induction T with
  | atom st k l r => exact fun s e hF h => rob_near s e h ⟨n, hF⟩
  | not _ c ih =>
    intro s e hF h t h1 h2
    obtain ⟨a, b⟩ := ih s e hF h t h1 h2
    exact ⟨near_neg b, near_neg a⟩
  | and _ l r i j =>
    intro s e hF h t h1 h2
    obtain ⟨a, b⟩ := i s e hF.1 h.1 t h1 h2
    obtain ⟨c, f⟩ := j s e hF.2 h.2 t h1 h2
    exact ⟨near_inf a c, near_inf b f⟩
  | or _ l r i j =>
    intro s e hF h t h1 h2
    obtain ⟨a, b⟩ := i s e hF.1 h.1 t h1 h2
    obtain ⟨c, f⟩ := j s e hF.2 h.2 t h1 h2
    exact ⟨near_sup a c, near_sup b f⟩
  | implies _ l r i j =>
    intro s e hF h t h1 h2
    obtain ⟨a, b⟩ := i s e hF.1 h.1 t h1 h2
    obtain ⟨c, f⟩ := j s e hF.2 h.2 t h1 h2
    exact ⟨near_sup (near_neg b) c, near_sup (near_neg a) f⟩
  | ev _ I c ih =>
    intro s e hF h t h1 h2
    have hc : ∀ u ∈ Set.Icc (t + bound P I.beginStr I.begin) (t + bound P I.stopStr I.stop), _ :=
      fun u hu => ih _ _ hF.2.2 h u (by linarith [hu.1]) (by linarith [hu.2])
    exact ⟨near_iSup fun u hu => (hc u hu).1, near_iSup fun u hu => (hc u hu).2⟩
  | alw _ I c ih =>
    intro s e hF h t h1 h2
    have hc : ∀ u ∈ Set.Icc (t + bound P I.beginStr I.begin) (t + bound P I.stopStr I.stop), _ :=
      fun u hu => ih _ _ hF.2.2 h u (by linarith [hu.1]) (by linarith [hu.2])
    exact ⟨near_iInf fun u hu => (hc u hu).1, near_iInf fun u hu => (hc u hu).2⟩
  | untl _ l I r i j =>
    intro s e hF h t h1 h2
    have hl : ∀ u ∈ Set.Icc (t + bound P I.beginStr I.begin) (t + bound P I.stopStr I.stop), ∀ w ∈ Set.Icc t u, _ :=
      fun u hu w hw => i s (e + bound P I.stopStr I.stop) hF.2.2.1 h.1 w (by linarith [hw.1])
        (by linarith [hw.2, hu.2])
    have hr : ∀ u ∈ Set.Icc (t + bound P I.beginStr I.begin) (t + bound P I.stopStr I.stop), _ :=
      fun u hu => j _ _ hF.2.2.2 h.2 u (by linarith [hu.1]) (by linarith [hu.2])
    exact ⟨near_iSup fun u hu => near_inf (hr u hu).1 (near_iInf fun w hw => (hl u hu w hw).1),
      near_iSup fun u hu => near_inf (hr u hu).2 (near_iInf fun w hw => (hl u hu w hw).2)⟩
  | _ => exact fun s e hF => hF.elim

theorem atomsNear_nest (ht : D.map rowTime = D'.map rowTime) (hne : D ≠ []) :
    ∀ {T : Tr} (s e : ℚ), (∀ row, D.head? = some row → rowTime row ≤ s) →
    IsUntilFormula n P T → SampledNear d D D' P T → AtomsNear .PREVIOUS d D D' P s e T := by
  intro T
  induction T with
  | atom st k l r => exact fun s e h0 hF hs => atomsNear_previous ht hne s e h0 (show IsFormula n P (.atom st k l r) from hF) hs
  | not _ c ih => exact fun s e h0 hF hs => ih s e h0 hF hs
  | and _ l r i j | or _ l r i j | implies _ l r i j =>
    exact fun s e h0 hF hs => ⟨i s e h0 hF.1 hs.1, j s e h0 hF.2 hs.2⟩
  | ev _ _ c ih | alw _ _ c ih =>
    exact fun s e h0 hF hs => ih _ _ (fun row hr => (h0 row hr).trans (by linarith [hF.1])) hF.2.2 hs
  | untl _ l I r i j =>
    exact fun s e h0 hF hs => ⟨i _ _ h0 hF.2.2.1 hs.1,
      j _ _ (fun row hr => (h0 row hr).trans (by linarith [hF.1])) hF.2.2.2 hs.2⟩
  | _ => exact fun s e h0 hF => hF.elim

theorem atomsUp_nest (ht : D.map rowTime = D'.map rowTime) (hne : D ≠ []) {s : ℚ}
    (h0 : ∀ row, D.head? = some row → rowTime row ≤ s) :
    ∀ {T : Tr} {p : Bool}, IsUntilFormula n P T → SampledUp D D' P p T → AtomsUp .PREVIOUS D D' P s p T := by
  intro T
  induction T with
  | atom st k l r => exact fun hF hs => atomsUp_previous ht hne h0 (show IsFormula n P (.atom st k l r) from hF) hs
  | not _ c ih => exact fun hF hs => ih hF hs
  | and _ l r i j | or _ l r i j | implies _ l r i j =>
    exact fun hF hs => ⟨i hF.1 hs.1, j hF.2 hs.2⟩
  | ev _ _ c ih | alw _ _ c ih => exact fun hF hs => ih hF.2.2 hs
  | untl _ l I r i j => exact fun hF hs => ⟨i hF.2.2.1 hs.1, j hF.2.2.2 hs.2⟩
  | _ => exact fun hF => hF.elim

theorem Spec.IsUntilFormula.onward : ∀ {T : Tr}, IsUntilFormula n P T → Onward P T := by
  intro T
  induction T with
  | not _ c ih => exact fun h => ih h
  | and _ l r h1 h2 | or _ l r h1 h2 | implies _ l r h1 h2 => exact fun h => ⟨h1 h.1, h2 h.2⟩
  | ev _ I c ih | alw _ I c ih => exact fun h => ⟨h.1, ih h.2.2⟩
  | untl _ l I r h1 h2 => exact fun h => ⟨h.1, h1 h.2.2.1, h2 h.2.2.2⟩
  | _ => exact fun _ => trivial

theorem Spec.IsUntilFormula.declared : ∀ {T : Tr}, IsUntilFormula n P T → Declared n T := by
  intro T
  induction T with
  | atom => exact id
  | not _ c ih => exact ih
  | and _ l r i j | or _ l r i j | implies _ l r i j => exact fun h => ⟨i h.1, j h.2⟩
  | ev _ _ c ih | alw _ _ c ih => exact fun h => ih h.2.2
  | untl _ l I r i j => exact fun h => ⟨i h.2.2.1, j h.2.2.2⟩
  | _ => exact fun h => h.elim

theorem Spec.UntilOutside.nest : ∀ {T : Tr}, UntilOutside n P T → IsUntilFormula n P T := by
  have key : ∀ {T : Tr}, IsFormula n P T → IsUntilFormula n P T := by
    intro T
    induction T with
    | atom => exact id
    | not _ c ih => exact ih
    | and _ l r i j | or _ l r i j | implies _ l r i j => exact fun h => ⟨i h.1, j h.2⟩
    | ev _ _ c ih | alw _ _ c ih => exact fun h => ⟨h.1, h.2.1, ih h.2.2⟩
    | _ => exact fun h => h.elim
  intro T
  induction T with
  | not _ c ih => exact ih
  | and _ l r i j | or _ l r i j | implies _ l r i j => exact fun h => ⟨i h.1, j h.2⟩
  | untl _ l I r i j => exact fun h => ⟨h.1, h.2.1, key h.2.2.1, key h.2.2.2⟩
  | _ => exact fun h => key (show IsFormula n P _ from h)

end
end STLRom
