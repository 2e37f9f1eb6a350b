import Verif.Proofs.PartialRun
import Verif.Proofs.StlFacts

/-!
# The interval semantics bounds the robustness on every completion of the trace
-/

namespace STLRom
open Signal Spec

theorem known_le_stop {d : ℚ} {P : Assoc ℚ} {n : ℕ} {T : Tr} {p : Bool} {S E : ℚ} (h : S ≤ E)
    (hF : IsFormula n P T) : known d P p S E T ≤ E := (known_mem T h hF).2

/-- `x` is a bound of kind `p` that allows at least what `y` allows. -/
def Looser (p : Bool) (x y : EReal) : Prop := (p = true → x ≤ y) ∧ (p = false → y ≤ x)

theorem Looser.neg {p : Bool} {x y : EReal} (h : Looser (!p) x y) : Looser p (-x) (-y) := by
  cases p
  · exact ⟨(nomatch ·), fun _ => EReal.neg_le_neg_iff.2 (h.1 rfl)⟩
  · exact ⟨fun _ => EReal.neg_le_neg_iff.2 (h.2 rfl), (nomatch ·)⟩

theorem Looser.inf {p : Bool} {x y x' y' : EReal} (h : Looser p x x') (h' : Looser p y y') :
    Looser p (x ⊓ y) (x' ⊓ y') :=
  ⟨fun e => inf_le_inf (h.1 e) (h'.1 e), fun e => inf_le_inf (h.2 e) (h'.2 e)⟩

theorem Looser.sup {p : Bool} {x y x' y' : EReal} (h : Looser p x x') (h' : Looser p y y') :
    Looser p (x ⊔ y) (x' ⊔ y') :=
  ⟨fun e => sup_le_sup (h.1 e) (h'.1 e), fun e => sup_le_sup (h.2 e) (h'.2 e)⟩

theorem Looser.refl {p : Bool} {x : EReal} : Looser p x x := ⟨fun _ => le_rfl, fun _ => le_rfl⟩

/-- Within `±B`. -/
def Wth (B : ℚ) (x : EReal) : Prop := er (-B) ≤ x ∧ x ≤ er B

theorem Wth.neg {B : ℚ} {x : EReal} (h : Wth B x) : Wth B (-x) := by
  have e : ∀ q : ℚ, er (-q) = -er q := fun q => by simp [er]
  constructor
  · rw [e]; exact EReal.neg_le_neg_iff.2 h.2
  · rw [← neg_neg (er B), ← e]; exact EReal.neg_le_neg_iff.2 h.1

theorem Wth.inf {B : ℚ} {x y : EReal} (h : Wth B x) (h' : Wth B y) : Wth B (x ⊓ y) :=
  ⟨le_inf h.1 h'.1, inf_le_left.trans h.2⟩

theorem Wth.sup {B : ℚ} {x y : EReal} (h : Wth B x) (h' : Wth B y) : Wth B (x ⊔ y) :=
  ⟨h.1.trans le_sup_left, sup_le h.2 h'.2⟩

theorem Wth.iSup {B u w : ℚ} {f : ℚ → EReal} (huw : u ≤ w) (h : ∀ r, u ≤ r → r ≤ w → Wth B (f r)) :
    Wth B (⨆ r ∈ Set.Icc u w, f r) :=
  ⟨(h u le_rfl huw).1.trans (le_iSup₂_of_le u ⟨le_rfl, huw⟩ le_rfl),
    iSup₂_le fun r hr => (h r hr.1 hr.2).2⟩

theorem Wth.iInf {B u w : ℚ} {f : ℚ → EReal} (huw : u ≤ w) (h : ∀ r, u ≤ r → r ≤ w → Wth B (f r)) :
    Wth B (⨅ r ∈ Set.Icc u w, f r) :=
  ⟨le_iInf₂ fun r hr => (h r hr.1 hr.2).1, iInf₂_le_of_le u ⟨le_rfl, huw⟩ (h u le_rfl huw).2⟩

theorem Wth.looser {B : ℚ} {x : EReal} (p : Bool) (h : Wth B x) : Looser p (er (if p then -B else B)) x := by
  cases p
  · exact ⟨(nomatch ·), fun _ => h.2⟩
  · exact ⟨fun _ => h.1, (nomatch ·)⟩

section
variable {ip : Interpol} {n : ℕ} {P : Assoc ℚ} {B : ℚ}

theorem rob_wth {D : List (List ℚ)} (T : Tr) : ∀ {S E : ℚ}, S ≤ E → IsFormula n P T →
    AtomsWithin ip B D P S E T → ∀ t, S ≤ t → t ≤ E → Wth B (rob ip D P T t) := by
  induction T with
  | atom s k l r =>
    intro S E _ _ h t h1 h2
    exact ⟨er_le.2 (h t h1 h2).1, er_le.2 (h t h1 h2).2⟩
  | not s c ih => exact fun hSE hF h t h1 h2 => (ih hSE hF h t h1 h2).neg
  | and s l r ih1 ih2 =>
    exact fun hSE hF h t h1 h2 => (ih1 hSE hF.1 h.1 t h1 h2).inf (ih2 hSE hF.2 h.2 t h1 h2)
  | or s l r ih1 ih2 =>
    exact fun hSE hF h t h1 h2 => (ih1 hSE hF.1 h.1 t h1 h2).sup (ih2 hSE hF.2 h.2 t h1 h2)
  | implies s l r ih1 ih2 =>
    exact fun hSE hF h t h1 h2 => (ih1 hSE hF.1 h.1 t h1 h2).neg.sup (ih2 hSE hF.2 h.2 t h1 h2)
  | ev s I c ih =>
    intro S E hSE hF h t h1 h2
    exact Wth.iSup (by linarith [hF.2.1]) fun r hr1 hr2 =>
      ih (by linarith [hF.2.1]) hF.2.2 h r (by linarith) (by linarith)
  | alw s I c ih =>
    intro S E hSE hF h t h1 h2
    exact Wth.iInf (by linarith [hF.2.1]) fun r hr1 hr2 =>
      ih (by linarith [hF.2.1]) hF.2.2 h r (by linarith) (by linarith)
  | _ => intro _ _ _ hF; exact hF.elim

theorem within_nonneg {D : List (List ℚ)} (T : Tr) : ∀ {S E : ℚ}, S ≤ E → IsFormula n P T →
    AtomsWithin ip B D P S E T → 0 ≤ B := by
  induction T with
  | atom s k l r => intro S E hSE _ h; have := h S le_rfl hSE; linarith [this.1, this.2]
  | not s c ih => exact fun hSE hF h => ih hSE hF h
  | and s l r ih1 ih2 | or s l r ih1 ih2 | implies s l r ih1 ih2 => exact fun hSE hF h => ih1 hSE hF.1 h.1
  | ev s I c ih | alw s I c ih => exact fun hSE hF h => ih (by linarith [hF.2.1]) hF.2.2 h
  | _ => intro _ _ _ hF; exact hF.elim

theorem within_to {D D' : List (List ℚ)}
    (hs : ∀ i t, t ≤ lastTime D → trace ip D i t = trace ip D' i t) (T : Tr) :
    ∀ {S E : ℚ}, IsFormula n P T → AtomsWithin ip B D' P S E T → AtomsWithinTo ip B D P S E T := by
  induction T with
  | atom s k l r =>
    intro S E _ h t h1 h2 h3
    rw [expr_upto hs h3, expr_upto hs h3]
    exact h t h1 h2
  | not s c ih => exact fun hF h => ih hF h
  | and s l r ih1 ih2 | or s l r ih1 ih2 | implies s l r ih1 ih2 =>
    exact fun hF h => ⟨ih1 hF.1 h.1, ih2 hF.2 h.2⟩
  | ev s I c ih | alw s I c ih => exact fun hF h => ih hF.2.2 h
  | _ => intro _ _ hF; exact hF.elim

/-- The bounds of the interval semantics hold on every completion. -/
theorem bound_sound {D D' : List (List ℚ)}
    (hs : ∀ i t, t ≤ lastTime D → trace ip D i t = trace ip D' i t) (T : Tr) :
    ∀ {p : Bool} {S E : ℚ}, S ≤ E → IsFormula n P T → AtomsWithin ip B D' P S E T →
    ∀ t, S ≤ t → t ≤ known (lastTime D) P p S E T →
    Looser p (robBound ip B D P p S E T t) (rob ip D' P T t) := by
  induction T with
  | atom s k l r =>
    intro p S E hSE hF h t h1 h2
    have h2 : t ≤ max S (min E (lastTime D)) := h2
    simp only [robBound]
    by_cases hd : lastTime D < S
    · rw [if_pos hd]
      exact (rob_wth _ hSE hF h t h1 (h2.trans (max_le hSE (min_le_left _ _)))).looser p
    · rw [if_neg hd]
      push Not at hd
      rw [max_eq_right (le_min hSE hd)] at h2
      have h3 := h2.trans (min_le_right _ _)
      simp only [rob, expr_upto hs h3]
      exact .refl
  | not s c ih =>
    intro p S E hSE hF h t h1 h2
    exact (ih (p := !p) hSE hF h t h1 h2).neg
  | and s l r ih1 ih2 =>
    intro p S E hSE hF h t h1 h2
    exact (ih1 hSE hF.1 h.1 t h1 (h2.trans (min_le_left _ _))).inf
      (ih2 hSE hF.2 h.2 t h1 (h2.trans (min_le_right _ _)))
  | or s l r ih1 ih2 =>
    intro p S E hSE hF h t h1 h2
    exact (ih1 hSE hF.1 h.1 t h1 (h2.trans (min_le_left _ _))).sup
      (ih2 hSE hF.2 h.2 t h1 (h2.trans (min_le_right _ _)))
  | implies s l r ih1 ih2 =>
    intro p S E hSE hF h t h1 h2
    exact (ih1 (p := !p) hSE hF.1 h.1 t h1 (h2.trans (min_le_left _ _))).neg.sup
      (ih2 hSE hF.2 h.2 t h1 (h2.trans (min_le_right _ _)))
  | ev s I c ih =>
    intro p S E hSE hF h t h1 h2
    have hte := h2.trans (known_le_stop hSE hF)
    have hw := rob_wth _ hSE hF h t h1 hte
    simp only [known, robBound, rob] at h2 hw ⊢
    obtain ⟨ha, hab, hFc⟩ := hF
    have ih' := @ih p _ _ (by linarith) hFc h
    set a := bound P I.beginStr I.begin
    set b := bound P I.stopStr I.stop
    set K := known (lastTime D) P p (S + a) (E + b) c
    cases p
    · simp only [true_and, Bool.false_eq_true, if_false] at h2 ⊢
      split_ifs with hK
      · exact hw.looser false
      · push Not at hK
        rw [max_eq_right (le_min hSE (by linarith))] at h2
        have h3 := h2.trans (min_le_right _ _)
        refine ⟨(nomatch ·), fun _ => iSup₂_le fun r hr => ?_⟩
        rw [min_eq_left (by linarith)]
        exact le_iSup₂_of_le r hr ((ih' r (by linarith [hr.1]) (by linarith [hr.2])).2 rfl)
    · simp only [Bool.true_eq_false, false_and, if_false]
      refine ⟨fun _ => iSup₂_le fun r hr => ?_, (nomatch ·)⟩
      have h4 := hr.2.trans (min_le_left _ _)
      have h5 := hr.2.trans (min_le_right _ _)
      exact le_iSup₂_of_le r ⟨hr.1, h4⟩ ((ih' r (by linarith [hr.1]) h5).1 rfl)
  | alw s I c ih =>
    intro p S E hSE hF h t h1 h2
    have hte := h2.trans (known_le_stop hSE hF)
    have hw := rob_wth _ hSE hF h t h1 hte
    simp only [known, robBound, rob] at h2 hw ⊢
    obtain ⟨ha, hab, hFc⟩ := hF
    have ih' := @ih p _ _ (by linarith) hFc h
    set a := bound P I.beginStr I.begin
    set b := bound P I.stopStr I.stop
    set K := known (lastTime D) P p (S + a) (E + b) c
    cases p
    · simp only [Bool.false_eq_true, false_and, if_false]
      refine ⟨(nomatch ·), fun _ => le_iInf₂ fun r hr => ?_⟩
      have h4 := hr.2.trans (min_le_left _ _)
      have h5 := hr.2.trans (min_le_right _ _)
      exact iInf₂_le_of_le r ⟨hr.1, h4⟩ ((ih' r (by linarith [hr.1]) h5).2 rfl)
    · simp only [true_and, if_true] at h2 ⊢
      split_ifs with hK
      · exact hw.looser true
      · push Not at hK
        rw [max_eq_right (le_min hSE (by linarith))] at h2
        have h3 := h2.trans (min_le_right _ _)
        refine ⟨fun _ => le_iInf₂ fun r hr => ?_, (nomatch ·)⟩
        rw [min_eq_left (by linarith)]
        exact iInf₂_le_of_le r hr ((ih' r (by linarith [hr.1]) (by linarith [hr.2])).1 rfl)
  | _ => intro _ _ _ _ hF; exact hF.elim

theorem known_mono {d d' : ℚ} (hd : d ≤ d') (T : Tr) : ∀ {p : Bool} {S E : ℚ},
    known d P p S E T ≤ known d' P p S E T := by
  induction T with
  | not s c ih => intro p S E; exact ih (p := !p)
  | and s l r ih1 ih2 | or s l r ih1 ih2 => intro p S E; exact min_le_min ih1 ih2
  | implies s l r ih1 ih2 => intro p S E; exact min_le_min (ih1 (p := !p)) ih2
  | ev s I c ih =>
    intro p S E
    simp only [known]
    have := @ih p (S + bound P I.beginStr I.begin) (E + bound P I.stopStr I.stop)
    cases p
    · exact max_le_max le_rfl (min_le_min le_rfl (by linarith))
    · exact min_le_min le_rfl (by linarith)
  | alw s I c ih =>
    intro p S E
    simp only [known]
    have := @ih p (S + bound P I.beginStr I.begin) (E + bound P I.stopStr I.stop)
    cases p
    · exact min_le_min le_rfl (by linarith)
    · exact max_le_max le_rfl (min_le_min le_rfl (by linarith))
  | _ => intro p S E; exact max_le_max le_rfl (min_le_min le_rfl hd)

theorem bound_wth {D : List (List ℚ)} (hB : 0 ≤ B) (T : Tr) : ∀ {p : Bool} {S E : ℚ}, S ≤ E →
    IsFormula n P T → AtomsWithinTo ip B D P S E T →
    ∀ t, S ≤ t → t ≤ known (lastTime D) P p S E T → Wth B (robBound ip B D P p S E T t) := by
  have w1 : Wth B (er B) := ⟨er_le.2 (by linarith), le_rfl⟩
  have w2 : Wth B (er (-B)) := ⟨le_rfl, er_le.2 (by linarith)⟩
  induction T with
  | atom s k l r =>
    intro p S E hSE hF h t h1 h2
    have h2 : t ≤ max S (min E (lastTime D)) := h2
    simp only [robBound]
    split_ifs with hd
    · exact w2
    · exact w1
    · push Not at hd
      rw [max_eq_right (le_min hSE hd)] at h2
      have := h t h1 (h2.trans (min_le_left _ _)) (h2.trans (min_le_right _ _))
      exact ⟨er_le.2 this.1, er_le.2 this.2⟩
  | not s c ih => exact fun {p} _ _ hSE hF h t h1 h2 => (ih (p := !p) hSE hF h t h1 h2).neg
  | and s l r ih1 ih2 =>
    exact fun hSE hF h t h1 h2 => (ih1 hSE hF.1 h.1 t h1 (h2.trans (min_le_left _ _))).inf
      (ih2 hSE hF.2 h.2 t h1 (h2.trans (min_le_right _ _)))
  | or s l r ih1 ih2 =>
    exact fun hSE hF h t h1 h2 => (ih1 hSE hF.1 h.1 t h1 (h2.trans (min_le_left _ _))).sup
      (ih2 hSE hF.2 h.2 t h1 (h2.trans (min_le_right _ _)))
  | implies s l r ih1 ih2 =>
    exact fun {p} _ _ hSE hF h t h1 h2 => (ih1 (p := !p) hSE hF.1 h.1 t h1 (h2.trans (min_le_left _ _))).neg.sup
      (ih2 hSE hF.2 h.2 t h1 (h2.trans (min_le_right _ _)))
  | ev s I c ih =>
    intro p S E hSE hF h t h1 h2
    simp only [known, robBound] at h2 ⊢
    obtain ⟨ha, hab, hFc⟩ := hF
    have ih' := @ih p _ _ (by linarith) hFc h
    set a := bound P I.beginStr I.begin
    set b := bound P I.stopStr I.stop
    set K := known (lastTime D) P p (S + a) (E + b) c
    split_ifs with hK
    · exact w1
    · have h3 : t + a ≤ K := by
        cases p
        · simp only [true_and, not_lt, Bool.false_eq_true, if_false] at hK h2
          rw [max_eq_right (le_min hSE (by linarith))] at h2
          linarith [h2.trans (min_le_right _ _)]
        · simp only [if_true] at h2
          linarith [h2.trans (min_le_right _ _)]
      exact Wth.iSup (le_min (by linarith) h3) fun r hr1 hr2 =>
        ih' r (by linarith) (hr2.trans (min_le_right _ _))
  | alw s I c ih =>
    intro p S E hSE hF h t h1 h2
    simp only [known, robBound] at h2 ⊢
    obtain ⟨ha, hab, hFc⟩ := hF
    have ih' := @ih p _ _ (by linarith) hFc h
    set a := bound P I.beginStr I.begin
    set b := bound P I.stopStr I.stop
    set K := known (lastTime D) P p (S + a) (E + b) c
    split_ifs with hK
    · exact w2
    · have h3 : t + a ≤ K := by
        cases p
        · simp only [Bool.false_eq_true, if_false] at h2
          linarith [h2.trans (min_le_right _ _)]
        · simp only [true_and, not_lt, if_true] at hK h2
          rw [max_eq_right (le_min hSE (by linarith))] at h2
          linarith [h2.trans (min_le_right _ _)]
      exact Wth.iInf (le_min (by linarith) h3) fun r hr1 hr2 =>
        ih' r (by linarith) (hr2.trans (min_le_right _ _))
  | _ => intro _ _ _ _ hF; exact hF.elim

/-- With more rows the bounds of the interval semantics get tighter. -/
theorem bound_mono {D D' : List (List ℚ)} (hB : 0 ≤ B) (hdd : lastTime D ≤ lastTime D')
    (hs : ∀ i t, t ≤ lastTime D → trace ip D i t = trace ip D' i t) (T : Tr) :
    ∀ {p : Bool} {S E : ℚ}, S ≤ E → IsFormula n P T → AtomsWithinTo ip B D' P S E T →
    ∀ t, S ≤ t → t ≤ known (lastTime D) P p S E T →
    Looser p (robBound ip B D P p S E T t) (robBound ip B D' P p S E T t) := by
  induction T with
  | atom s k l r =>
    intro p S E hSE hF h t h1 h2
    have hw := bound_wth hB (.atom s k l r) (p := p) hSE hF h t h1 (h2.trans (known_mono hdd _))
    have h2 : t ≤ max S (min E (lastTime D)) := h2
    rw [show robBound ip B D P p S E (.atom s k l r) t = if lastTime D < S then er (if p then -B else B)
      else rob ip D P (.atom s k l r) t from rfl]
    split_ifs with hd hp
    · subst hp; exact hw.looser true
    · rw [Bool.not_eq_true] at hp; subst hp; exact hw.looser false
    · push Not at hd
      rw [max_eq_right (le_min hSE hd)] at h2
      have h3 := h2.trans (min_le_right _ _)
      simp only [robBound, if_neg (not_lt.2 (hd.trans hdd)), rob, expr_upto hs h3]
      exact .refl
  | not s c ih =>
    intro p S E hSE hF h t h1 h2
    exact (ih (p := !p) hSE hF h t h1 h2).neg
  | and s l r ih1 ih2 =>
    intro p S E hSE hF h t h1 h2
    exact (ih1 hSE hF.1 h.1 t h1 (h2.trans (min_le_left _ _))).inf
      (ih2 hSE hF.2 h.2 t h1 (h2.trans (min_le_right _ _)))
  | or s l r ih1 ih2 =>
    intro p S E hSE hF h t h1 h2
    exact (ih1 hSE hF.1 h.1 t h1 (h2.trans (min_le_left _ _))).sup
      (ih2 hSE hF.2 h.2 t h1 (h2.trans (min_le_right _ _)))
  | implies s l r ih1 ih2 =>
    intro p S E hSE hF h t h1 h2
    exact (ih1 (p := !p) hSE hF.1 h.1 t h1 (h2.trans (min_le_left _ _))).neg.sup
      (ih2 hSE hF.2 h.2 t h1 (h2.trans (min_le_right _ _)))
  | ev s I c ih =>
    intro p S E hSE hF h t h1 h2
    have hw := bound_wth hB (.ev s I c) (p := p) hSE hF h t h1 (h2.trans (known_mono hdd _))
    simp only [known, robBound] at h2 hw ⊢
    obtain ⟨ha, hab, hFc⟩ := hF
    have ih' := @ih p _ _ (by linarith) hFc h
    have hKK := known_mono (P := P) hdd c (p := p) (S := S + bound P I.beginStr I.begin)
      (E := E + bound P I.stopStr I.stop)
    set a := bound P I.beginStr I.begin
    set b := bound P I.stopStr I.stop
    set K := known (lastTime D) P p (S + a) (E + b) c
    set K' := known (lastTime D') P p (S + a) (E + b) c
    cases p
    · simp only [true_and, Bool.false_eq_true, if_false] at h2 hw ⊢
      by_cases hK : K < S + b
      · rw [if_pos hK]; exact hw.looser false
      · push Not at hK
        rw [if_neg (not_lt.2 hK), if_neg (not_lt.2 (hK.trans hKK))]
        rw [max_eq_right (le_min hSE (by linarith))] at h2
        have h3 := h2.trans (min_le_right _ _)
        rw [min_eq_left (by linarith), min_eq_left (by linarith)]
        refine ⟨(nomatch ·), fun _ => iSup₂_le fun r hr => ?_⟩
        exact le_iSup₂_of_le r hr ((ih' r (by linarith [hr.1]) (by linarith [hr.2])).2 rfl)
    · simp only [Bool.true_eq_false, false_and, if_false]
      refine ⟨fun _ => iSup₂_le fun r hr => ?_, (nomatch ·)⟩
      have h4 := hr.2.trans (min_le_left _ _)
      have h5 := hr.2.trans (min_le_right _ _)
      exact le_iSup₂_of_le r ⟨hr.1, le_min h4 (h5.trans hKK)⟩ ((ih' r (by linarith [hr.1]) h5).1 rfl)
  | alw s I c ih =>
    intro p S E hSE hF h t h1 h2
    have hw := bound_wth hB (.alw s I c) (p := p) hSE hF h t h1 (h2.trans (known_mono hdd _))
    simp only [known, robBound] at h2 hw ⊢
    obtain ⟨ha, hab, hFc⟩ := hF
    have ih' := @ih p _ _ (by linarith) hFc h
    have hKK := known_mono (P := P) hdd c (p := p) (S := S + bound P I.beginStr I.begin)
      (E := E + bound P I.stopStr I.stop)
    set a := bound P I.beginStr I.begin
    set b := bound P I.stopStr I.stop
    set K := known (lastTime D) P p (S + a) (E + b) c
    set K' := known (lastTime D') P p (S + a) (E + b) c
    cases p
    · simp only [Bool.false_eq_true, false_and, if_false]
      refine ⟨(nomatch ·), fun _ => le_iInf₂ fun r hr => ?_⟩
      have h4 := hr.2.trans (min_le_left _ _)
      have h5 := hr.2.trans (min_le_right _ _)
      exact iInf₂_le_of_le r ⟨hr.1, le_min h4 (h5.trans hKK)⟩ ((ih' r (by linarith [hr.1]) h5).2 rfl)
    · simp only [true_and, if_true] at h2 hw ⊢
      by_cases hK : K < S + b
      · rw [if_pos hK]; exact hw.looser true
      · push Not at hK
        rw [if_neg (not_lt.2 hK), if_neg (not_lt.2 (hK.trans hKK))]
        rw [max_eq_right (le_min hSE (by linarith))] at h2
        have h3 := h2.trans (min_le_right _ _)
        rw [min_eq_left (by linarith), min_eq_left (by linarith)]
        refine ⟨fun _ => le_iInf₂ fun r hr => ?_, (nomatch ·)⟩
        exact iInf₂_le_of_le r hr ((ih' r (by linarith [hr.1]) (by linarith [hr.2])).1 rfl)
  | _ => intro _ _ _ _ hF; exact hF.elim

end

/-! ## First rows of a trace -/

theorem wellShaped_prefix {n : ℕ} {D R : List (List ℚ)} (h : WellShaped n (D ++ R)) : WellShaped n D := by
  refine ⟨fun row hr => h.1 row (List.mem_append_left _ hr), ?_⟩
  have := h.2
  rw [List.pairwise_append] at this
  exact this.1

theorem same_prefix {n : ℕ} {D R : List (List ℚ)} (hne : D ≠ []) (h : WellShaped n (D ++ R)) :
    SameUntil (lastTime D) D (D ++ R) := by
  obtain ⟨row, h1, h2⟩ := lastTime_eq hne (wellShaped_prefix h)
  rcases List.eq_nil_or_concat D with h3 | ⟨l, x, h3⟩
  · exact absurd h3 hne
  · rw [h3] at h1
    simp only [List.concat_eq_append, List.getLast?_append, List.getLast?_singleton, Option.some_or,
      Option.some.injEq] at h1
    subst h1
    rw [List.concat_eq_append] at h3
    exact ⟨l, x, [], R, h3, by rw [h3]; simp, ⟨_, h2, le_rfl⟩⟩

theorem lastTime_mono {n : ℕ} {D R : List (List ℚ)} (hne : D ≠ []) (h : WellShaped n (D ++ R)) :
    lastTime D ≤ lastTime (D ++ R) := by
  obtain ⟨row, h1, h2⟩ := lastTime_eq hne (wellShaped_prefix h)
  rw [← rowTime_of_head h2]
  exact rowTime_le_last (by simp [hne]) h row (List.mem_append_left _ (List.mem_of_getLast? h1))

theorem begun_prefix {ip : Interpol} {n : ℕ} {B : ℚ} {m : Monitor} {R : List (List ℚ)} {T : Tr} {s e : ℚ}
    (hne : m.data ≠ []) (h : Ready ip n B { m with data := m.data ++ R } T s e) :
    Begun ip n B m T s e := by
  have hs := same_prefix hne h.rows
  have hw := wellShaped_prefix h.rows
  refine ⟨h.formula, h.sem, h.interpol, h.names, hw, h.shape, within_nonneg T h.stop h.shape h.within,
    within_to (fun i t ht => trace_upto hw h.rows hs i ht) T h.shape h.within, h.start, h.stop, ?_⟩
  obtain ⟨row, t, h1, h2⟩ := h.covers.1
  refine ⟨row, t, ?_, h2⟩
  have h1 : (m.data ++ R).head? = some row := h1
  cases hd : m.data with
  | nil => exact absurd hd hne
  | cons x l => rw [hd] at h1; simpa using h1

theorem plain_okTo {D : List (List ℚ)} {P : Assoc ℚ} : ∀ {T : Tr} (s e : ℚ), PlainAtoms T →
    AtomsOkTo D P s e T := by
  intro T
  induction T with
  | atom => exact fun s e h => Or.inl h
  | not _ c ih => exact fun s e h => ih s e h
  | ev _ _ c ih | alw _ _ c ih => exact fun s e h => ih _ _ h
  | and _ l r h1 h2 | or _ l r h1 h2 | implies _ l r h1 h2 => exact fun s e h => ⟨h1 s e h.1, h2 s e h.2⟩
  | untl => exact fun _ _ _ => trivial
  | _ => exact fun _ _ h => h.elim

/-! ## Formulas whose inner temporal operators have Boolean operands, at one time -/

theorem noLong_joined {B : ℚ} {D : List (List ℚ)} {P : Assoc ℚ} {n : ℕ} : ∀ {T : Tr} {i p : Bool} {s e : ℚ},
    IsFormula n P T → Joined i T → (i = false → s = e) →
      NoLongBound B D P p s e T ∧ Uncut (lastTime D) P s e T := by
  intro T
  induction T with
  | atom => exact fun _ _ _ => ⟨trivial, trivial⟩
  | not _ c ih => intro i p s e hF h hi; exact ih (p := !p) hF h hi
  | and _ l r h1 h2 | or _ l r h1 h2 =>
    intro i p s e hF h hi
    have a1 := @h1 i p s e hF.1 h.1 hi
    have a2 := @h2 i p s e hF.2 h.2 hi
    exact ⟨⟨a1.1, a2.1⟩, a1.2, a2.2⟩
  | implies _ l r h1 h2 =>
    intro i p s e hF h hi
    have a1 := @h1 i (!p) s e hF.1 h.1 hi
    have a2 := @h2 i p s e hF.2 h.2 hi
    exact ⟨⟨a1.1, a2.1⟩, a1.2, a2.2⟩
  | ev _ I c ih =>
    intro i p s e ⟨ha, hab, hF⟩ ⟨hc, hb⟩ hi
    obtain ⟨h1, h2⟩ := ih (p := p) (s := s + bound P I.beginStr I.begin)
      (e := e + bound P I.stopStr I.stop) hF hc (fun h => nomatch h)
    cases i with
    | true =>
      have hb := hb rfl
      exact ⟨⟨h1, fun _ _ => Or.inl (isBoolean_marked hb), fun h => absurd h (isBoolean_not_atom hb)⟩, h2,
        fun h => absurd h (isBoolean_not_atom hb)⟩
    | false =>
      obtain rfl := hi rfl
      refine ⟨⟨h1, fun hlt => ?_, fun _ _ => Or.inr fun r v d hr1 hr2 => ?_⟩, h2, fun _ => ?_⟩
      · exact absurd hlt (not_lt.2 (known_le_stop (by linarith) hF))
      · have := min_le_right (lastTime D - bound P I.beginStr I.begin) s
        linarith
      · have := min_le_right (lastTime D - bound P I.beginStr I.begin) s
        linarith
  | alw _ I c ih =>
    intro i p s e ⟨ha, hab, hF⟩ ⟨hc, hb⟩ hi
    obtain ⟨h1, h2⟩ := ih (p := p) (s := s + bound P I.beginStr I.begin)
      (e := e + bound P I.stopStr I.stop) hF hc (fun h => nomatch h)
    cases i with
    | true => exact ⟨⟨h1, fun _ _ => Or.inl (isBoolean_marked (hb rfl))⟩, h2⟩
    | false =>
      obtain rfl := hi rfl
      exact ⟨⟨h1, fun hlt => absurd hlt (not_lt.2 (known_le_stop (by linarith) hF))⟩, h2⟩
  | untl => intro _ _ _ _ _ h; exact h.elim
  | _ => intro _ _ _ _ h; exact h.elim

end STLRom
