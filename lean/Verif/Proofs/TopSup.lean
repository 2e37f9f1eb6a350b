import Verif.Proofs.Timed
import Verif.Proofs.Bridge
import Verif.Spec.Temporal

/-!
# From greatest values over one-sided points to suprema over times
-/

namespace STLRom
open Signal Spec

theorem Spec.Regular.reg {x : Signal} (h : Regular x) : SInc x.samples ∨ CG x := by
  refine h.regular.imp id fun hg => ⟨fun t h1 h2 => ?_, fun p hp => ?_⟩
  · have := hg.continuous t h1 h2
    rw [ContinuousAt, h.wf.value h1.le, h.wf.leftValue h1] at this
    exact (Option.some.inj this).symm
  · have := hg.samples p hp
    rw [value_eq] at this
    rw [Signal.v, this]; rfl

/-- The limit from the left is bounded by any bound on the values just before. -/
theorem left_le {x : Signal} (hx : WF0 x) {s r u : ℚ} (hb : x.beginTime ≤ s) (hsr : s < r)
    (h : ∀ q, s ≤ q → q < r → x.v (pl q) ≤ u) : x.v (mi r) ≤ u := by
  have hv := hx.val (τ := mi r) (by rw [pl_le_mi]; exact hb.trans_lt hsr)
  rcases hc : cur x.samples (mi r) with _ | p
  · simp [val, hc] at hv
  obtain ⟨l1, l2, h1, h2, h3⟩ := cur_split hc
  have hpr : p.time < r := by simpa using h2
  have hp : ∀ τ, pl p.time ≤ τ → τ ≤ mi r → x.v τ = p.valueAt τ.time := by
    intro τ c1 c2
    apply Signal.v_of_val
    rw [h1]
    refine val_piece (by rw [← h1]; exact hx.sorted) c1 fun q hq => ?_
    exact lt_of_le_of_lt c2 (h3 q hq)
  rw [hp _ h2 le_rfl]
  by_contra hcon
  push Not at hcon
  simp only [mi_time] at hcon
  set m := max s p.time with hm
  have hmr : m < r := max_lt hsr hpr
  have key : ∀ q, m ≤ q → q < r → p.valueAt q ≤ u := by
    intro q c1 c2
    have := h q ((le_max_left _ _).trans c1) c2
    rwa [hp (pl q) (by simpa using (le_max_right _ _).trans c1) (by simpa using c2)] at this
  have k0 := key m le_rfl hmr
  simp only [Sample.valueAt] at hcon k0 key
  have hd : 0 < p.derivative := by
    by_contra hd
    push Not at hd
    nlinarith
  -- where the line reaches `u`
  have hq1 : p.value + p.derivative * (r - p.time) - u > 0 := by linarith
  set δ := (p.value + p.derivative * (r - p.time) - u) / (2 * p.derivative) with hδ
  have hδp : 0 < δ := by positivity
  have hmul : 2 * p.derivative * δ = p.value + p.derivative * (r - p.time) - u := by
    rw [hδ]; field_simp
  have k1 := key (max m (r - δ)) (le_max_left _ _) (max_lt hmr (by linarith))
  have k2 : r - δ ≤ max m (r - δ) := le_max_right _ _
  nlinarith

theorem Top.isLUB {x : Signal} (hx : WF0 x) {s t v : ℚ} (hb : x.beginTime ≤ s)
    (h : Top x.v (pl s) (pl t) v) : IsLUB (valuesOn x s t) v := by
  refine ⟨?_, ?_⟩
  · rintro w ⟨r, h1, h2, h3⟩
    rw [hx.value (hb.trans h1)] at h3
    obtain rfl := Option.some.inj h3
    exact h.2 _ (by simpa using h1) (by simpa using h2)
  · intro u hu
    obtain ⟨σ, h1, h2, h3⟩ := h.1
    have hq : ∀ q, s ≤ q → q ≤ t → x.v (pl q) ≤ u := fun q c d =>
      hu ⟨q, c, d, hx.value (hb.trans c)⟩
    rcases Pt.cases σ with e | e
    · rw [e] at h1 h2 h3
      rw [← h3]
      exact hq _ (by simpa using h1) (by simpa using h2)
    · rw [e] at h1 h2 h3
      rw [pl_le_mi] at h1
      rw [le_pl_iff, mi_time] at h2
      rw [← h3]
      exact left_le hx hb h1 fun q c d => hq q c (d.le.trans h2)

theorem Bot.isGLB {x : Signal} (hx : WF0 x) {s t v : ℚ} (hb : x.beginTime ≤ s)
    (h : Bot x.v (pl s) (pl t) v) : IsGLB (valuesOn x s t) v := by
  have h' : Top (computeNot x).v (pl s) (pl t) (-v) := by
    have e : (computeNot x).v = fun σ => -x.v σ := by funext σ; exact v_not x σ
    rw [e, top_neg]
    exact h
  have := Top.isLUB (x := computeNot x) hx.not hb h'
  refine ⟨?_, ?_⟩
  · rintro w ⟨r, h1, h2, h3⟩
    have : -w ≤ -v := this.1 ⟨r, h1, h2, by
      rw [value_eq] at h3 ⊢
      rw [computeNot_samples, val_negs, h3]; rfl⟩
    linarith
  · intro u hu
    have : -v ≤ -u := this.2 (by
      rintro w ⟨r, h1, h2, h3⟩
      rw [value_eq, computeNot_samples, val_negs, Option.map_eq_some_iff] at h3
      obtain ⟨w', h3, rfl⟩ := h3
      have : u ≤ w' := hu ⟨r, h1, h2, by rw [value_eq]; exact h3⟩
      linarith)
    linarith

theorem Spec.CutSafe.keeps {x : Signal} {a b : ℚ} (h : CutSafe x (b - a)) :
    x.beginTime + (b - a) < x.endTime → a < b → KeepsSlope x (x.beginTime + (b - a)) :=
  fun h1 h2 => Or.inr (h (by linarith) h1)

theorem Spec.Bounded.lower {B : ℚ} {x : Signal} (h : Bounded B x) (hx : WF0 x) :
    ∀ σ, pl x.beginTime ≤ σ → σ ≤ pl x.endTime → -B ≤ x.v σ ∧ x.v σ ≤ B := by
  intro σ h1 h2
  rcases Pt.cases σ with e | e
  · rw [e] at h1 h2 ⊢
    rw [pl_le_pl] at h1 h2
    exact h.1 _ _ h1 h2 (hx.value h1)
  · rw [e] at h1 h2 ⊢
    rw [pl_le_mi] at h1
    rw [le_pl_iff] at h2
    exact h.2 _ _ h1 h2 (hx.leftValue h1)

end STLRom
