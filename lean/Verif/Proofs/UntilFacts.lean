import Verif.Proofs.PrevRows
import Verif.Spec.Top

/-!
# Nearness and monotonicity of robustness for formulas with `until`

The lemmas of `Proofs/StlFacts`, `Proofs/PrevRows` and `Proofs/Mono` for until-free formulas, carried
over to formulas whose `until`s are outside of temporal operators.
-/

namespace STLRom
open Signal Spec

section
variable {n : ℕ} {P : Assoc ℚ} {D D' : List (List ℚ)} {d : ℚ}

theorem near_inf {a b c f : EReal} (h : Near d a b) (h' : Near d c f) : Near d (a ⊓ c) (b ⊓ f) := by
  unfold Near at *
  rw [(add_left_mono (α := EReal)).map_min]
  exact inf_le_inf h h'

theorem near_sup {a b c f : EReal} (h : Near d a b) (h' : Near d c f) : Near d (a ⊔ c) (b ⊔ f) := by
  unfold Near at *
  rw [(add_left_mono (α := EReal)).map_max]
  exact sup_le_sup h h'

theorem near_iSup {S : Set ℚ} {f g : ℚ → EReal} (h : ∀ r ∈ S, Near d (f r) (g r)) :
    Near d (⨆ r ∈ S, f r) (⨆ r ∈ S, g r) := by
  unfold Near at *
  refine iSup₂_le fun r hr => (h r hr).trans ?_
  gcongr
  exact le_iSup₂_of_le r hr le_rfl

theorem near_iInf {S : Set ℚ} {f g : ℚ → EReal} (h : ∀ r ∈ S, Near d (f r) (g r)) :
    Near d (⨅ r ∈ S, f r) (⨅ r ∈ S, g r) := by
  have k1 : er d ≠ ⊥ := EReal.coe_ne_bot _
  have k2 : er d ≠ ⊤ := EReal.coe_ne_top _
  unfold Near at *
  rw [← EReal.sub_le_iff_le_add (Or.inl k1) (Or.inl k2)]
  refine le_iInf₂ fun r hr => ?_
  rw [EReal.sub_le_iff_le_add (Or.inl k1) (Or.inl k2)]
  exact (iInf₂_le r hr).trans (h r hr)

/-- Margins that differ by at most `d` give robustness that differs by at most `d`. -/
theorem rob_near_outside {ip : Interpol} : ∀ {T : Tr} (s e : ℚ), UntilOutside n P T →
    AtomsNear ip d D D' P s e T → ∀ t, s ≤ t → t ≤ e →
    Near d (rob ip D P T t) (rob ip D' P T t) ∧ Near d (rob ip D' P T t) (rob ip D P T t) := by
  intro T
  induction T with
  | not _ c ih =>
    intro s e hF h t h1 h2
    obtain ⟨a, b⟩ := ih s e hF h t h1 h2
    exact ⟨near_neg b, near_neg a⟩
  | and _ l r i j =>
    intro s e hF h t h1 h2
    obtain ⟨a, b⟩ := i s e hF.1 h.1 t h1 h2
    obtain ⟨c, f⟩ := j s e hF.2 h.2 t h1 h2
    exact ⟨near_inf a c, near_inf b f⟩
  | or _ l r i j =>
    intro s e hF h t h1 h2
    obtain ⟨a, b⟩ := i s e hF.1 h.1 t h1 h2
    obtain ⟨c, f⟩ := j s e hF.2 h.2 t h1 h2
    exact ⟨near_sup a c, near_sup b f⟩
  | implies _ l r i j =>
    intro s e hF h t h1 h2
    obtain ⟨a, b⟩ := i s e hF.1 h.1 t h1 h2
    obtain ⟨c, f⟩ := j s e hF.2 h.2 t h1 h2
    exact ⟨near_sup (near_neg b) c, near_sup (near_neg a) f⟩
  | untl _ l I r =>
    intro s e hF h t h1 h2
    have hl : ∀ u ∈ Set.Icc (t + bound P I.beginStr I.begin) (t + bound P I.stopStr I.stop), ∀ w ∈ Set.Icc t u, _ :=
      fun u hu w hw => rob_near s (e + bound P I.stopStr I.stop) h.1 ⟨n, hF.2.2.1⟩ w (by linarith [hw.1])
        (by linarith [hw.2, hu.2])
    have hr : ∀ u ∈ Set.Icc (t + bound P I.beginStr I.begin) (t + bound P I.stopStr I.stop), _ :=
      fun u hu => rob_near _ _ h.2 ⟨n, hF.2.2.2⟩ u (by linarith [hu.1]) (by linarith [hu.2])
    exact ⟨near_iSup fun u hu => near_inf (hr u hu).1 (near_iInf fun w hw => (hl u hu w hw).1),
      near_iSup fun u hu => near_inf (hr u hu).2 (near_iInf fun w hw => (hl u hu w hw).2)⟩
  | _ => exact fun s e hF h => rob_near s e h ⟨n, hF⟩

theorem atomsNear_outside (hD : WellShaped n D) (hD' : WellShaped n D') (ht : D.map rowTime = D'.map rowTime)
    (hne : D ≠ []) {s : ℚ} (h0 : ∀ row, D.head? = some row → rowTime row ≤ s) :
    ∀ {T : Tr}, UntilOutside n P T → AffineAtoms T → SampledNear d D D' P T → AtomsNear .LINEAR d D D' P s s T := by
  intro T
  induction T with
  | not _ c ih => exact fun hF ha hs => ih hF ha hs
  | and _ l r i j | or _ l r i j | implies _ l r i j =>
    exact fun hF ha hs => ⟨i hF.1 ha.1 hs.1, j hF.2 ha.2 hs.2⟩
  | untl _ l I r =>
    exact fun hF ha hs => ⟨atomsNear_of_sampled hD hD' ht _ _ h0 hne hF.2.2.1 ha.1 hs.1,
      atomsNear_of_sampled hD hD' ht _ _ (fun row hr => (h0 row hr).trans (by linarith [hF.1])) hne hF.2.2.2 ha.2 hs.2⟩
  | _ => exact fun hF ha hs => atomsNear_of_sampled hD hD' ht _ _ h0 hne (show IsFormula n P _ from hF) ha hs

theorem atomsNear_outside_previous (ht : D.map rowTime = D'.map rowTime) (hne : D ≠ []) {s : ℚ}
    (h0 : ∀ row, D.head? = some row → rowTime row ≤ s) :
    ∀ {T : Tr}, UntilOutside n P T → SampledNear d D D' P T → AtomsNear .PREVIOUS d D D' P s s T := by
  intro T
  induction T with
  | not _ c ih => exact fun hF hs => ih hF hs
  | and _ l r i j | or _ l r i j | implies _ l r i j =>
    exact fun hF hs => ⟨i hF.1 hs.1, j hF.2 hs.2⟩
  | untl _ l I r =>
    exact fun hF hs => ⟨atomsNear_previous ht hne _ _ h0 hF.2.2.1 hs.1,
      atomsNear_previous ht hne _ _ (fun row hr => (h0 row hr).trans (by linarith [hF.1])) hF.2.2.2 hs.2⟩
  | _ => exact fun hF hs => atomsNear_previous ht hne _ _ h0 (show IsFormula n P _ from hF) hs

theorem atomsUp_outside_previous (ht : D.map rowTime = D'.map rowTime) (hne : D ≠ []) {s : ℚ}
    (h0 : ∀ row, D.head? = some row → rowTime row ≤ s) :
    ∀ {T : Tr} {p : Bool}, UntilOutside n P T → SampledUp D D' P p T → AtomsUp .PREVIOUS D D' P s p T := by
  intro T
  induction T with
  | not _ c ih => exact fun hF hs => ih hF hs
  | and _ l r i j | or _ l r i j | implies _ l r i j =>
    exact fun hF hs => ⟨i hF.1 hs.1, j hF.2 hs.2⟩
  | untl _ l I r =>
    exact fun hF hs => ⟨atomsUp_previous ht hne h0 hF.2.2.1 hs.1, atomsUp_previous ht hne h0 hF.2.2.2 hs.2⟩
  | _ => exact fun hF hs => atomsUp_previous ht hne h0 (show IsFormula n P _ from hF) hs

end
end STLRom
