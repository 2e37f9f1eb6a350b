import Verif.Spec.Affine
import Verif.Spec.Runs
import Verif.Spec.UntilStep
import Verif.Proofs.NestFacts

/-!
# The robustness of a trace that starts later, with `until`
-/

namespace STLRom
open Signal Spec

variable {n : ℕ} {c : ℚ} {D : List (List ℚ)} {P : Assoc ℚ} {ip : Interpol} {B : ℚ}

theorem interp_later (ip : Interpol) (t : ℚ) : ∀ l : List (ℚ × ℚ),
    interp ip (l.map fun p => (p.1 + c, p.2)) (t + c) = interp ip l t
  | [] => rfl
  | [(t0, v0)] => by simp [interp]
  | (t0, v0) :: (t1, v1) :: r => by
    have ih := interp_later ip t ((t1, v1) :: r)
    simp only [List.map_cons, interp, add_lt_add_iff_right] at ih ⊢
    rw [ih]
    simp only [add_sub_add_right_eq_sub]

theorem head_moved (row : List ℚ) : (movedRow c 1 row).head? = row.head?.map (· + c) := by
  cases row <;> rfl

theorem column_moved (hD : WellShaped n D) {i : ℕ} (hi : 0 < i) :
    column (moved c 1 D) i = (column D i).map fun p => (p.1 + c, p.2) := by
  rw [column, column, moved, List.map_map, List.map_map]
  refine List.map_congr_left fun row h => ?_
  have := hD.1 row h
  cases row with
  | nil => simp at this
  | cons t vs =>
    obtain ⟨j, rfl⟩ : ∃ j, i = j + 1 := ⟨i - 1, by omega⟩
    simp [movedRow]

theorem expr_moved (hD : WellShaped n D) (t : ℚ) : ∀ {T : Tr}, IsExpr n T →
    expr ip (moved c 1 D) P T (t + c) = expr ip D P T t := by
  intro T
  induction T with
  | sig st v m td =>
    rintro ⟨i, h1, h2, -⟩
    simp only [expr, h1, Option.getD_some, trace, column_moved hD h2, interp_later]
  | const => exact fun _ => rfl
  | abs _ c ih => exact fun h => by simp only [expr, ih h]
  | plus _ l r i j | minus _ l r i j | mult _ l r i j => exact fun h => by simp only [expr, i h.1, j h.2]
  | _ => exact fun h => h.elim

theorem iSup_later {α : Type*} [CompleteLattice α] (f : ℚ → α) (a b : ℚ) :
    (⨆ r ∈ Set.Icc (a + c) (b + c), f r) = ⨆ r ∈ Set.Icc a b, f (r + c) := by
  refine le_antisymm (iSup₂_le fun r hr => ?_) (iSup₂_le fun r hr => ?_)
  · have := le_iSup₂ (f := fun r (_ : r ∈ Set.Icc a b) => f (r + c)) (r - c)
      ⟨by linarith [hr.1], by linarith [hr.2]⟩
    simpa using this
  · exact le_iSup₂ (f := fun r (_ : r ∈ Set.Icc (a + c) (b + c)) => f r) (r + c)
      ⟨by linarith [hr.1], by linarith [hr.2]⟩

theorem iInf_later {α : Type*} [CompleteLattice α] (f : ℚ → α) (a b : ℚ) :
    (⨅ r ∈ Set.Icc (a + c) (b + c), f r) = ⨅ r ∈ Set.Icc a b, f (r + c) :=
  iSup_later (α := αᵒᵈ) f a b

theorem rob_moved (hD : WellShaped n D) : ∀ {T : Tr}, IsUntilFormula n P T → ∀ t,
    rob ip (moved c 1 D) P T (t + c) = rob ip D P T t := by
  intro T
  induction T with
  | atom st k l r => exact fun h t => by simp only [rob, expr_moved hD t h.1, expr_moved hD t h.2]
  | not _ d ih => exact fun h t => by simp only [rob, ih h t]
  | and _ l r i j | or _ l r i j | implies _ l r i j => exact fun h t => by simp only [rob, i h.1 t, j h.2 t]
  | ev _ I d ih | alw _ I d ih =>
    intro h t
    simp only [rob]
    rw [add_right_comm t c, add_right_comm t c]
    first | rw [iSup_later] | rw [iInf_later]
    simp only [ih h.2.2]
  | untl _ l I r i j =>
    intro h t
    simp only [rob]
    rw [add_right_comm t c, add_right_comm t c, iSup_later]
    simp only [iInf_later, i h.2.2.1, j h.2.2.2]
  | _ => exact fun h => h.elim

theorem wellShaped_moved (hD : WellShaped n D) : WellShaped n (moved c 1 D) := by
  refine ⟨fun row h => ?_, ?_⟩
  · obtain ⟨r, hr, rfl⟩ := List.mem_map.1 h
    rw [← hD.1 r hr]
    cases r <;> simp [movedRow]
  · refine List.pairwise_map.2 (hD.2.imp fun {a b} h t u ht hu => ?_)
    rw [head_moved] at ht hu
    obtain ⟨t', ht', rfl⟩ := Option.map_eq_some_iff.1 ht
    obtain ⟨u', hu', rfl⟩ := Option.map_eq_some_iff.1 hu
    exact add_lt_add_left (h t' u' ht' hu') _

theorem rowAt_moved {t : ℚ} (h : RowAt D t) : RowAt (moved c 1 D) (t + c) := by
  obtain ⟨row, h1, h2⟩ := h
  exact ⟨_, List.mem_map_of_mem h1, by rw [head_moved, h2]; rfl⟩

theorem covers_moved {s e : ℚ} (h : Covers D s e) : Covers (moved c 1 D) (s + c) (e + c) := by
  obtain ⟨⟨r, t, h1, h2, h3⟩, r', t', k1, k2, k3⟩ := h
  refine ⟨⟨movedRow c 1 r, t + c, ?_, by rw [head_moved, h2]; rfl, by linarith⟩,
    movedRow c 1 r', t' + c, ?_, by rw [head_moved, k2]; rfl, by linarith⟩
  · rw [moved, List.head?_map, h1]; rfl
  · rw [moved, List.getLast?_map, k1]; rfl

theorem rowIn_moved {u w : ℚ} (h : ∃ row ∈ D, ∃ t, row.head? = some t ∧ u ≤ t ∧ t ≤ w) :
    ∃ row ∈ moved c 1 D, ∃ t, row.head? = some t ∧ u + c ≤ t ∧ t ≤ w + c := by
  obtain ⟨row, h1, t, h2, h3, h4⟩ := h
  exact ⟨_, List.mem_map_of_mem h1, t + c, by rw [head_moved, h2]; rfl, by linarith, by linarith⟩

theorem marked_moved {u w : ℚ} : ∀ {T : Tr}, Marked D u w T → Marked (moved c 1 D) (u + c) (w + c) T := by
  intro T
  induction T with
  | atom => exact fun h => rowIn_moved h
  | not _ d ih => exact fun h => ih h
  | and | or | implies => exact fun h => h
  | _ => exact fun h => h.elim

theorem markedU_moved {u w : ℚ} : ∀ {T : Tr}, MarkedU D u w T → MarkedU (moved c 1 D) (u + c) (w + c) T := by
  intro T
  induction T with
  | not _ d ih => exact fun h => ih h
  | untl => exact fun h => h
  | _ => exact fun h => marked_moved h

theorem bends_later {f f' : ℚ → EReal} (hf : ∀ t, f' (t + c) = f t) {s u e : ℚ} (h : Bends f s u e) :
    Bends f' (s + c) (u + c) (e + c) := by
  intro r v d h1 h2 h3
  refine h (r - c) v d (by linarith) (by linarith) fun t k1 k2 => ?_
  rw [← hf t, h3 (t + c) (by linarith) (by linarith)]
  ring_nf

theorem settles_later {f f' : ℚ → EReal} (hf : ∀ t, f' (t + c) = f t) {s e : ℚ} (h : Settles f s e) :
    Settles f' (s + c) (e + c) := by
  intro hlt
  obtain ⟨r, h1, h2, h3⟩ := h (by linarith)
  refine ⟨r + c, by linarith, by linarith, fun t k1 k2 => ?_⟩
  rw [hf e, ← h3 (t - c) (by linarith) (by linarith), ← hf (t - c), sub_add_cancel]

theorem endRow_moved {s e : ℚ} (h : s = e ∨ RowAt D e) : s + c = e + c ∨ RowAt (moved c 1 D) (e + c) :=
  h.imp (congrArg (· + c)) rowAt_moved

theorem atomsOk_moved : ∀ {T : Tr} (s e : ℚ), AtomsOk D P s e T → AtomsOk (moved c 1 D) P (s + c) (e + c) T := by
  intro T
  induction T with
  | atom st k l r => exact fun s e h => h.imp id fun h => ⟨h.1, h.2.1, endRow_moved h.2.2⟩
  | not _ d ih => exact fun s e h => ih s e h
  | and _ l r i j | or _ l r i j | implies _ l r i j => exact fun s e h => ⟨i s e h.1, j s e h.2⟩
  | ev _ I d ih | alw _ I d ih =>
    intro s e h
    show AtomsOk _ _ (s + c + _) (e + c + _) _
    rw [add_right_comm s c, add_right_comm e c]
    exact ih _ _ h
  | untl _ l I r i j =>
    intro s e h
    show AtomsOk _ _ (s + c) (e + c + _) _ ∧ AtomsOk _ _ (s + c + _) (e + c + _) _
    rw [add_right_comm s c, add_right_comm e c]
    exact ⟨i _ _ h.1, j _ _ h.2⟩
  | _ => exact fun _ _ _ => trivial

theorem atomsReach_moved : ∀ {T : Tr} (s e : ℚ), AtomsReach D P s e T → AtomsReach (moved c 1 D) P (s + c) (e + c) T := by
  intro T
  induction T with
  | atom st k l r => exact fun s e h => h.imp id endRow_moved
  | not _ d ih => exact fun s e h => ih s e h
  | and _ l r i j | or _ l r i j | implies _ l r i j => exact fun s e h => ⟨i s e h.1, j s e h.2⟩
  | ev _ I d ih | alw _ I d ih =>
    intro s e h
    show AtomsReach _ _ (s + c + _) (e + c + _) _
    rw [add_right_comm s c, add_right_comm e c]
    exact ih _ _ h
  | untl _ l I r i j =>
    intro s e h
    show AtomsReach _ _ (s + c) (e + c + _) _ ∧ AtomsReach _ _ (s + c + _) (e + c + _) _
    rw [add_right_comm s c, add_right_comm e c]
    exact ⟨i _ _ h.1, j _ _ h.2⟩
  | _ => exact fun _ _ _ => trivial

theorem atomsWithin_moved (hD : WellShaped n D) : ∀ {T : Tr} (s e : ℚ), IsUntilFormula n P T →
    AtomsWithin ip B D P s e T → AtomsWithin ip B (moved c 1 D) P (s + c) (e + c) T := by
  intro T
  induction T with
  | atom st k l r =>
    intro s e hF h t h1 h2
    have := h (t - c) (by linarith) (by linarith)
    rw [← expr_moved (c := c) hD (t - c) hF.1, ← expr_moved (c := c) hD (t - c) hF.2, sub_add_cancel] at this
    exact this
  | not _ d ih => exact fun s e hF h => ih s e hF h
  | and _ l r i j | or _ l r i j | implies _ l r i j => exact fun s e hF h => ⟨i s e hF.1 h.1, j s e hF.2 h.2⟩
  | ev _ I d ih | alw _ I d ih =>
    intro s e hF h
    show AtomsWithin _ _ _ _ (s + c + _) (e + c + _) _
    rw [add_right_comm s c, add_right_comm e c]
    exact ih _ _ hF.2.2 h
  | untl _ l I r i j =>
    intro s e hF h
    show AtomsWithin _ _ _ _ (s + c) (e + c + _) _ ∧ AtomsWithin _ _ _ _ (s + c + _) (e + c + _) _
    rw [add_right_comm s c, add_right_comm e c]
    exact ⟨i _ _ hF.2.2.1 h.1, j _ _ hF.2.2.2 h.2⟩
  | _ => exact fun _ _ h => h.elim

theorem noLongSlope_moved (hD : WellShaped n D) : ∀ {T : Tr} (s e : ℚ), IsUntilFormula n P T →
    NoLongSlope ip D P s e T → NoLongSlope ip (moved c 1 D) P (s + c) (e + c) T := by
  intro T
  induction T with
  | not _ d ih => exact fun s e hF h => ih s e hF h
  | and _ l r i j | or _ l r i j | implies _ l r i j => exact fun s e hF h => ⟨i s e hF.1 h.1, j s e hF.2 h.2⟩
  | ev _ I d ih | alw _ I d ih =>
    intro s e hF h
    simp only [NoLongSlope]
    rw [add_right_comm s c, add_right_comm e c, add_right_comm s c]
    exact ⟨ih _ _ hF.2.2 h.1, fun k1 k2 => (h.2 (by linarith) k2).imp marked_moved
      (bends_later (rob_moved hD hF.2.2))⟩
  | untl _ l I r i j =>
    intro s e hF h
    simp only [NoLongSlope]
    rw [add_right_comm s c, add_right_comm e c]
    exact ⟨i _ _ hF.2.2.1 h.1, j _ _ hF.2.2.2 h.2⟩
  | _ => exact fun _ _ _ _ => trivial

theorem farEnd_later (e : ℚ) : ∀ T : Tr, farEnd P (e + c) T = farEnd P e T + c := by
  intro T
  induction T with
  | not _ d ih => exact ih
  | and _ l r i j | or _ l r i j => simp only [farEnd, i, j, max_add_add_right]
  | implies _ l r i j => simp only [farEnd, i, j, min_add_add_right]
  | untl _ l I r => simp only [farEnd]; ring
  | _ => rfl

theorem linNestOk_moved (hD : WellShaped n D) : ∀ {T : Tr} (s e : ℚ), IsUntilFormula n P T →
    LinNestOk D P s e T → LinNestOk (moved c 1 D) P (s + c) (e + c) T := by
  intro T
  induction T with
  | atom st k l r => exact fun s e _ h => atomsOk_moved s e h
  | not _ d ih => exact fun s e hF h => ih s e hF h
  | and _ l r i j | or _ l r i j =>
    exact fun s e hF h => ⟨i s e hF.1 h.1, j s e hF.2 h.2.1, by rw [farEnd_later, farEnd_later, h.2.2]⟩
  | implies _ l r i j => exact fun s e hF h => ⟨i s e hF.1 h.1, j s e hF.2 h.2⟩
  | ev _ I d ih | alw _ I d ih =>
    intro s e hF h
    simp only [LinNestOk]
    rw [add_right_comm s c, add_right_comm e c, add_right_comm s c]
    exact ⟨ih _ _ hF.2.2 h.1, fun k1 k2 => (h.2 (by linarith) k2).imp markedU_moved
      (bends_later (rob_moved hD hF.2.2))⟩
  | untl _ l I r i j =>
    intro s e hF h
    obtain ⟨h1, h2, h3, h4, h5, h6⟩ := h
    simp only [LinNestOk]
    rw [add_right_comm s c, add_right_comm e c, add_right_comm s c]
    exact ⟨by linarith, h2, h3, atomsOk_moved _ _ h4, atomsOk_moved _ _ h5, rowIn_moved h6⟩
  | _ => exact fun _ _ _ _ => trivial

theorem nestOk_moved (hD : WellShaped n D) : ∀ {T : Tr} (s e : ℚ), IsUntilFormula n P T →
    NestOk D P s e T → NestOk (moved c 1 D) P (s + c) (e + c) T := by
  intro T
  induction T with
  | atom st k l r => exact fun s e _ h => h.imp id endRow_moved
  | not _ d ih => exact fun s e hF h => ih s e hF h
  | and _ l r i j | or _ l r i j | implies _ l r i j =>
    exact fun s e hF h => ⟨i s e hF.1 h.1, j s e hF.2 h.2.1, settles_later (rob_moved hD hF.1) h.2.2.1,
      settles_later (rob_moved hD hF.2) h.2.2.2⟩
  | ev _ I d ih | alw _ I d ih =>
    intro s e hF h
    simp only [NestOk]
    rw [add_right_comm s c, add_right_comm e c]
    exact ih _ _ hF.2.2 h
  | untl _ l I r i j =>
    intro s e hF h
    obtain ⟨h1, h2, h3, h4⟩ := h
    simp only [NestOk]
    rw [add_right_comm s c, add_right_comm e c]
    exact ⟨by linarith, i _ _ hF.2.2.1 h2, j _ _ hF.2.2.2 h3, settles_later (rob_moved hD hF.2.2.2) h4⟩
  | _ => exact fun _ _ _ _ => trivial

theorem stepOk_moved (hD : WellShaped n D) : ∀ {T : Tr} (s e : ℚ), IsUntilFormula n P T →
    StepOk D P s e T → StepOk (moved c 1 D) P (s + c) (e + c) T := by
  intro T
  induction T with
  | atom st k l r => exact fun s e _ h => h.imp id endRow_moved
  | not _ d ih => exact fun s e hF h => ih s e hF h
  | and _ l r i j | or _ l r i j | implies _ l r i j =>
    exact fun s e hF h => ⟨i s e hF.1 h.1, j s e hF.2 h.2.1, settles_later (rob_moved hD hF.1) h.2.2.1,
      settles_later (rob_moved hD hF.2) h.2.2.2⟩
  | ev _ I d ih | alw _ I d ih =>
    intro s e hF h
    simp only [StepOk]
    rw [add_right_comm s c, add_right_comm e c]
    exact ih _ _ hF.2.2 h
  | _ => exact fun _ _ _ _ => trivial

theorem topStepOk_moved (hD : WellShaped n D) (t : ℚ) : ∀ {T : Tr}, IsUntilFormula n P T →
    TopStepOk D P t T → TopStepOk (moved c 1 D) P (t + c) T := by
  intro T
  induction T with
  | not _ d ih => exact fun hF h => ih hF h
  | and _ l r i j | or _ l r i j | implies _ l r i j => exact fun hF h => ⟨i hF.1 h.1, j hF.2 h.2⟩
  | untl _ l I r i j =>
    intro hF h
    obtain ⟨h1, h2, h3⟩ := h
    simp only [TopStepOk]
    rw [add_right_comm t c, add_right_comm t c]
    exact ⟨stepOk_moved hD _ _ hF.2.2.1 h1, stepOk_moved hD _ _ hF.2.2.2 h2, settles_later (rob_moved hD hF.2.2.2) h3⟩
  | _ => exact fun hF h => stepOk_moved hD t t hF h

theorem untrimmed_later : ∀ {T : Tr} (s e : ℚ), Untrimmed P s e T → Untrimmed P (s + c) (e + c) T := by
  intro T
  induction T with
  | not _ d ih => exact fun s e h => ih s e h
  | and _ l r i j | or _ l r i j | implies _ l r i j => exact fun s e h => ⟨i s e h.1, j s e h.2⟩
  | ev _ I d ih =>
    intro s e h
    simp only [Untrimmed]
    rw [add_right_comm s c, add_right_comm e c]
    exact ⟨ih _ _ h.1, fun k => by linarith [h.2 k]⟩
  | alw _ I d ih =>
    intro s e h
    simp only [Untrimmed]
    rw [add_right_comm s c, add_right_comm e c]
    exact ih _ _ h
  | untl _ l I r i j =>
    intro s e h
    simp only [Untrimmed]
    rw [add_right_comm s c, add_right_comm e c]
    exact ⟨i _ _ h.1, j _ _ h.2⟩
  | _ => exact fun _ _ _ => trivial

theorem beginsInside_moved (hD : WellShaped n D) (t : ℚ) : ∀ {T : Tr}, IsUntilFormula n P T →
    BeginsInside ip B D P t T → BeginsInside ip B (moved c 1 D) P (t + c) T := by
  intro T
  induction T with
  | not _ d ih => exact fun hF h => ih hF h
  | and _ l r i j | or _ l r i j | implies _ l r i j => exact fun hF h => ⟨i hF.1 h.1, j hF.2 h.2⟩
  | untl _ l I r i j =>
    intro hF h
    simp only [BeginsInside]
    rw [add_right_comm t c, rob_moved hD hF.2.2.1, rob_moved hD hF.2.2.2]
    exact h
  | _ => exact fun hF h => trivial

theorem operandsInside_moved (hD : WellShaped n D) (s : ℚ) {T : Tr} (hF : IsUntilFormula n P T)
    (h : OperandsInside ip B D P s T) : OperandsInside ip B (moved c 1 D) P (s + c) T := by
  cases T with
  | untl _ l I r =>
    simp only [OperandsInside]
    rw [add_right_comm s c, rob_moved hD hF.2.2.1, rob_moved hD hF.2.2.2]
    exact h
  | _ => exact trivial

theorem boolInside_moved (hD : WellShaped n D) : ∀ {T : Tr} (s : ℚ), IsUntilFormula n P T →
    BoolInside ip B D P s T → BoolInside ip B (moved c 1 D) P (s + c) T := by
  intro T
  induction T with
  | not _ d ih => exact fun s hF h => ih s hF h
  | and _ l r i j | or _ l r i j | implies _ l r i j =>
    exact fun s hF h => ⟨i s hF.1 h.1, j s hF.2 h.2.1, operandsInside_moved hD s hF.1 h.2.2.1,
      operandsInside_moved hD s hF.2 h.2.2.2⟩
  | ev _ I d ih | alw _ I d ih =>
    intro s hF h
    simp only [BoolInside]
    rw [add_right_comm s c]
    exact ih _ hF.2.2 h
  | _ => exact fun s hF h => trivial

/-- The same monitor, with every row moved. -/
def Monitor.later (c : ℚ) (m : Monitor) : Monitor := { m with data := moved c 1 m.data }

theorem Spec.LinNestReady.later {m : Monitor} {T : Tr} {t : ℚ} (h : LinNestReady n B m T t) (h0 : 0 ≤ t + c) :
    LinNestReady n B (m.later c) T (t + c) :=
  ⟨h.formula, h.sem, h.interpol, h.names, wellShaped_moved h.rows, h.shape, linNestOk_moved h.rows _ _ h.shape h.ok,
    atomsWithin_moved h.rows _ _ h.shape h.within, h0, by rw [add_right_comm]; exact covers_moved h.covers⟩

theorem Spec.NestReady.later {m : Monitor} {T : Tr} {t : ℚ} (h : NestReady n B m T t) (h0 : 0 ≤ t + c) :
    NestReady n B (m.later c) T (t + c) :=
  ⟨h.formula, h.sem, h.interpol, h.names, wellShaped_moved h.rows, h.shape, nestOk_moved h.rows _ _ h.shape h.ok,
    atomsWithin_moved h.rows _ _ h.shape h.within, h0, by rw [add_right_comm]; exact covers_moved h.covers⟩

theorem Spec.TopReady.later {m : Monitor} {T : Tr} {t : ℚ} (h : TopReady n B m T t) (h0 : 0 ≤ t + c) :
    TopReady n B (m.later c) T (t + c) :=
  ⟨h.formula, h.sem, h.interpol, h.names, wellShaped_moved h.rows, h.shape, atomsOk_moved _ _ h.sampled,
    atomsWithin_moved h.rows _ _ h.shape.nest h.within, noLongSlope_moved h.rows _ _ h.shape.nest h.bends, h0,
    by rw [add_right_comm]; exact covers_moved h.covers⟩

theorem Spec.TopStepReady.later {m : Monitor} {T : Tr} {t : ℚ} (h : TopStepReady n B m T t) (h0 : 0 ≤ t + c) :
    TopStepReady n B (m.later c) T (t + c) :=
  ⟨h.formula, h.sem, h.interpol, h.names, wellShaped_moved h.rows, h.shape, h.big,
    atomsWithin_moved h.rows _ _ h.shape.nest h.within, h0, by rw [add_right_comm]; exact covers_moved h.covers⟩

theorem Spec.RunReady.later {m : Monitor} {T : Tr} {s e : ℚ} (h : RunReady n m T s e) (h0 : 0 ≤ s + c) :
    RunReady n (m.later c) T (s + c) (e + c) :=
  ⟨h.formula, h.sem, h.names, wellShaped_moved h.rows, h.shape, atomsReach_moved _ _ h.ends, h0,
    by linarith [h.order], by rw [add_right_comm]; exact covers_moved h.covers⟩

/-! ### Two traces with the same times, LINEAR interpolation -/

theorem atomsNear_lin {D' : List (List ℚ)} {d : ℚ} (hD : WellShaped n D) (hD' : WellShaped n D')
    (ht : D.map rowTime = D'.map rowTime) (hne : D ≠ []) : ∀ {T : Tr} (s e : ℚ),
    (∀ row, D.head? = some row → rowTime row ≤ s) → IsUntilFormula n P T → AffineAtoms T → SampledNear d D D' P T →
      AtomsNear .LINEAR d D D' P s e T := by
  intro T
  induction T with
  | atom st k l r =>
    exact fun s e h0 hF ha hs => atomsNear_of_sampled hD hD' ht _ _ h0 hne (show IsFormula n P (.atom st k l r) from hF) ha hs
  | not _ c ih => exact fun s e h0 hF ha hs => ih s e h0 hF ha hs
  | and _ l r i j | or _ l r i j | implies _ l r i j =>
    exact fun s e h0 hF ha hs => ⟨i s e h0 hF.1 ha.1 hs.1, j s e h0 hF.2 ha.2 hs.2⟩
  | ev _ _ c ih | alw _ _ c ih =>
    exact fun s e h0 hF ha hs => ih _ _ (fun row hr => (h0 row hr).trans (by linarith [hF.1])) hF.2.2 ha hs
  | untl _ l I r i j =>
    exact fun s e h0 hF ha hs => ⟨i _ _ h0 hF.2.2.1 ha.1 hs.1,
      j _ _ (fun row hr => (h0 row hr).trans (by linarith [hF.1])) hF.2.2.2 ha.2 hs.2⟩
  | _ => exact fun s e h0 hF => hF.elim

theorem leaf_affine {T : Tr} (h : IsLeaf T) : IsAffine T := by
  cases T with
  | sig | const => exact trivial
  | _ => exact h.elim

theorem atomOk_affine {s e : ℚ} {T : Tr} (hT : IsComparison T) (h : AtomsOk D P s e T) : AffineAtoms T := by
  cases T with
  | atom st k l r => exact h.elim (fun h => ⟨leaf_affine h.1, leaf_affine h.2⟩) fun h => ⟨h.1, h.2.1⟩
  | _ => exact hT.elim

theorem linNest_affine : ∀ {T : Tr} (s e : ℚ), IsUntilFormula n P T → LinNestOk D P s e T → AffineAtoms T := by
  intro T
  induction T with
  | atom st k l r => exact fun s e hF h => atomOk_affine trivial h
  | not _ c ih => exact fun s e hF h => ih s e hF h
  | and _ l r i j | or _ l r i j => exact fun s e hF h => ⟨i s e hF.1 h.1, j s e hF.2 h.2.1⟩
  | implies _ l r i j => exact fun s e hF h => ⟨i s e hF.1 h.1, j s e hF.2 h.2⟩
  | ev _ _ c ih | alw _ _ c ih => exact fun s e hF h => ih _ _ hF.2.2 h.1
  | untl _ l I r i j => exact fun s e hF h => ⟨atomOk_affine h.2.1 h.2.2.2.1, atomOk_affine h.2.2.1 h.2.2.2.2.1⟩
  | _ => exact fun s e hF => hF.elim

end STLRom
