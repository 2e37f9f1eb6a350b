import Verif.Proofs.Glob

/-!
# Timed `eventually` and `globally`
-/

namespace STLRom
open Signal

theorem Top.shift {X Y : Pt → ℚ} {τ U : Pt} {v a : ℚ} (h : Top Y τ U v)
    (hY : ∀ σ, Y σ = X (σ.shift a)) : Top X (τ.shift a) (U.shift a) v := by
  refine ⟨?_, ?_⟩
  · obtain ⟨σ, h1, h2, h3⟩ := h.1
    exact ⟨σ.shift a, by simpa using h1, by simpa using h2, by rw [← hY, h3]⟩
  · intro σ h1 h2
    have := h.2 (σ.shift (-a)) (by rwa [← Pt.shift_le_iff])
      (by rwa [Pt.le_shift_iff] at h2)
    rwa [hY, Pt.shift_neg'] at this

theorem Signal.shift_zero (x : Signal) : x.shift 0 = x := by
  simp [Signal.shift]

theorem SInc.shift {x : Signal} (h : SInc x.samples) (a : ℚ) : SInc (x.shift a).samples := by
  unfold SInc at *
  simp only [Signal.shift]
  rw [List.pairwise_map]
  exact h.imp (by simp)

theorem CG.shift {x : Signal} (h : CG x) (a : ℚ) : CG (x.shift a) := by
  constructor
  · intro t h1 h2
    have h1' : x.beginTime + a < t := h1
    have h2' : t ≤ x.endTime + a := h2
    rw [v_shift, v_shift, mi_shift, pl_shift]
    exact h.cts _ (by linarith) (by linarith)
  · intro p hp
    obtain ⟨q, hq, rfl⟩ := shift_samples_mem hp
    rw [v_shift, pl_shift, add_neg_cancel_right]
    exact h.vc q hq

theorem KeepsSlope.shift {x : Signal} {s : ℚ} (h : KeepsSlope x s) (a : ℚ) :
    KeepsSlope (x.shift a) (s + a) := by
  rcases h with h | ⟨p, hp, h⟩ | h
  · exact Or.inl (by show x.beginTime + a = _; rw [h])
  · exact Or.inr (Or.inl ⟨_, List.mem_map_of_mem hp, by simpa using h⟩)
  · refine Or.inr (Or.inr fun p hp => ?_)
    simp only [Signal.shift, List.getLast?_map, Option.map_eq_some_iff] at hp
    obtain ⟨q, hq, rfl⟩ := hp
    exact h q hq

theorem min_shift (σ τ : Pt) (a : ℚ) : (min σ τ).shift a = min (σ.shift a) (τ.shift a) := by
  rcases le_total σ τ with h | h
  · rw [min_eq_left h, min_eq_left (by simpa using h)]
  · rw [min_eq_right h, min_eq_right (by simpa using h)]

/-- The timed `eventually`. -/
theorem computeTimedEventually_spec {old x : Signal} {B a b : ℚ} (hx : WF0 x)
    (hg : SInc x.samples ∨ CG x) (ha : 0 ≤ a) (hab : a ≤ b)
    (hk : x.beginTime + (b - a) < x.endTime → a < b → KeepsSlope x (x.beginTime + (b - a)))
    (hB : ∀ σ, pl x.beginTime ≤ σ → σ ≤ pl x.endTime → -B ≤ x.v σ) :
    ∃ z, computeTimedEventually B old x a b = .ok z ∧ z.beginTime = x.beginTime - a ∧
      z.endTime = x.endTime - a ∧ (WF0 z ∧ (WF x → WF z)) ∧
      (∀ τ, pl z.beginTime ≤ τ → τ ≤ pl z.endTime →
        (x.beginTime + (b - a) < x.endTime → a < b →
          τ ≤ mi z.endTime ∨ x.v (mi x.endTime) = x.v (pl x.endTime)) →
        Top x.v (τ.shift a) (min (τ.shift b) (pl x.endTime)) (z.v τ)) ∧ (CG x → CG z) := by
  have hbe := hx.begin_le_end
  have hy : (if 0 < a then shift x (-a) else x) = shift x (-a) := by
    split_ifs with h
    · rfl
    · rw [le_antisymm (not_lt.1 h) ha, neg_zero, Signal.shift_zero]
  have hyb : (x.shift (-a)).beginTime = x.beginTime - a := by simp [Signal.shift, sub_eq_add_neg]
  have hye : (x.shift (-a)).endTime = x.endTime - a := by simp [Signal.shift, sub_eq_add_neg]
  have hyv : ∀ σ, (x.shift (-a)).v σ = x.v (σ.shift a) := fun σ => by rw [v_shift, neg_neg]
  have hyw := hx.shift (-a)
  have hgy : SInc (x.shift (-a)).samples ∨ CG (x.shift (-a)) :=
    hg.imp (fun h => h.shift _) (fun h => h.shift _)
  have hpe : (pl (x.endTime - a)).shift a = pl x.endTime := by simp
  have hByv : ∀ σ, pl (x.shift (-a)).beginTime ≤ σ → σ ≤ pl (x.shift (-a)).endTime →
      -B ≤ (x.shift (-a)).v σ := by
    intro σ h1 h2
    rw [hyv]
    rw [hyb] at h1
    rw [hye] at h2
    refine hB _ ?_ ?_
    · have := (Pt.shift_le_shift (a := a)).2 h1
      simpa using this
    · have := (Pt.shift_le_shift (a := a)).2 h2
      simpa using this
  simp only [computeTimedEventually, if_neg hx.ne, hy]
  by_cases h0 : b - a ≤ 0
  · have hba : b = a := by linarith
    rw [if_pos h0]
    refine ⟨_, rfl, hyb, hye, ⟨hyw, fun h => h.shift _⟩, ?_, fun hc => hc.shift _⟩
    intro τ h1 h2 _
    rw [hyv, hba]
    have h3 : τ.shift a ≤ pl x.endTime := by
      have := (Pt.shift_le_shift (a := a)).2 h2
      rw [hye] at this
      simpa using this
    rw [min_eq_left h3]
    exact ⟨⟨_, le_rfl, le_rfl, rfl⟩, fun σ c d => by rw [le_antisymm d c]⟩
  · rw [if_neg h0]
    by_cases h1 : (x.shift (-a)).endTime - (x.shift (-a)).beginTime ≤ b - a
    · rw [if_pos h1]
      obtain ⟨z, e1, e2, e3, e4, e5, e6⟩ := computeEventually_spec (B := B) hyw
        (hgy.elim SInc.gc CG.gc) (hByv _ (by simpa [hyb, hye] using hbe) le_rfl)
      refine ⟨z, e1, by rw [e2, hyb], by rw [e3, hye], ⟨e4.toWF0, fun _ => e4⟩, ?_, fun hc => e6 (hc.shift _)⟩
      intro τ h2 h3 _
      rw [e2] at h2
      rw [e3] at h3
      have := (e5 τ h2 h3).shift hyv
      rw [hye, hpe] at this
      have h4 : pl x.endTime ≤ τ.shift b := by
        have h5 := (Pt.shift_le_shift (a := b)).2 h2
        refine le_trans ?_ h5
        rw [hyb, pl_shift]
        rw [hyb, hye] at h1
        simp only [pl_le_pl]
        linarith
      rw [min_eq_right h4]
      exact this
    · rw [if_neg h1]
      rw [hyb, hye] at h1
      have hlt : x.beginTime + (b - a) < x.endTime := by linarith
      obtain ⟨z, e1, e2, e3, e4, e5, e6, e7⟩ := computeBoundedEventually_spec (B := B) (a := b - a)
        hyw hgy (by linarith) (by rw [hyb, hye]; linarith)
        (by
          have := (hk hlt (by linarith)).shift (-a)
          rw [hyb]
          have e : x.beginTime + (b - a) + -a = x.beginTime - a + (b - a) := by ring
          rwa [e] at this)
        hByv
      refine ⟨z, e1, by rw [e2, hyb], by rw [e3, hye], ⟨e4.toWF0, fun _ => e4⟩, ?_, fun hc => e7 (hc.shift _)⟩
      intro τ h2 h3 h4
      rw [e2] at h2
      rw [e3] at h3 h4
      have main : ∀ τ, pl (x.shift (-a)).beginTime ≤ τ → τ ≤ mi (x.shift (-a)).endTime →
          Top x.v (τ.shift a) (min (τ.shift b) (pl x.endTime)) (z.v τ) := by
        intro τ h2 h3
        have := (e5 τ h2 h3).shift hyv
        rw [min_shift, hye, hpe, Pt.shift_shift] at this
        have e : b - a + a = b := by ring
        rwa [e] at this
      rcases le_or_gt τ (mi (x.shift (-a)).endTime) with h5 | h5
      · exact main τ h2 h5
      · rw [mi_lt_iff] at h5
        have h6 : τ = pl (x.shift (-a)).endTime := le_antisymm h3 h5
        have h7 : x.v (mi x.endTime) = x.v (pl x.endTime) := by
          rcases h4 hlt (by linarith) with h4 | h4
          · rw [h6] at h4; simp at h4
          · exact h4
        subst h6
        rw [e6]
        have := main (mi (x.shift (-a)).endTime) (by
          rw [hyb, hye, pl_le_mi]; linarith) le_rfl
        rw [hye] at this ⊢
        have h8 : pl x.endTime ≤ (mi (x.endTime - a)).shift b := by
          rw [mi_shift, pl_le_mi]; linarith
        have h9 : pl x.endTime ≤ (pl (x.endTime - a)).shift b := h8.trans (by simp)
        rw [min_eq_right h8] at this
        rw [min_eq_right h9, hpe]
        rw [mi_shift, sub_add_cancel] at this
        obtain ⟨⟨σ, c1, c2, c3⟩, c4⟩ := this
        refine ⟨⟨pl x.endTime, le_rfl, le_rfl, ?_⟩, fun σ d1 d2 => c4 σ (le_trans (by simp) d1) d2⟩
        rcases eq_or_lt_of_le c1 with rfl | c1
        · rw [← h7, c3]
        · rw [mi_lt_iff] at c1
          rw [← c3, le_antisymm c2 c1]

/-- Duality of the timed operators, as computed. -/
theorem computeTimedGlobally_not (B : ℚ) (old x : Signal) (a b : ℚ) :
    computeTimedGlobally B old (computeNot x) a b =
      (computeTimedEventually B old x a b).map computeNot := by
  unfold computeTimedGlobally computeTimedEventually
  rw [computeNot_samples]
  simp only [List.map_eq_nil_iff]
  by_cases h : x.samples = []
  · rw [if_pos h, if_pos h]
    rfl
  · rw [if_neg h, if_neg h]
    have hy : (if 0 < a then shift (computeNot x) (-a) else computeNot x) =
        computeNot (if 0 < a then shift x (-a) else x) := by
      split_ifs
      · exact shift_not x (-a)
      · rfl
    rw [hy]
    generalize (if 0 < a then shift x (-a) else x) = y
    have hb : (computeNot y).beginTime = y.beginTime := rfl
    have he : (computeNot y).endTime = y.endTime := rfl
    simp only [hb, he]
    by_cases h1 : b - a ≤ 0
    · rw [if_pos h1, if_pos h1]; rfl
    · rw [if_neg h1, if_neg h1]
      by_cases h2 : y.endTime - y.beginTime ≤ b - a
      · rw [if_pos h2, if_pos h2]
        simp only [computeGlobally, computeNot_computeNot]
        cases computeEventually B y <;> rfl
      · rw [if_neg h2, if_neg h2]
        exact computeBoundedGlobally_not B y (b - a)

/-- The timed `globally`. -/
theorem computeTimedGlobally_spec {old x : Signal} {B a b : ℚ} (hx : WF0 x)
    (hg : SInc x.samples ∨ CG x) (ha : 0 ≤ a) (hab : a ≤ b)
    (hk : x.beginTime + (b - a) < x.endTime → a < b → KeepsSlope x (x.beginTime + (b - a)))
    (hB : ∀ σ, pl x.beginTime ≤ σ → σ ≤ pl x.endTime → x.v σ ≤ B) :
    ∃ z, computeTimedGlobally B old x a b = .ok z ∧ z.beginTime = x.beginTime - a ∧
      z.endTime = x.endTime - a ∧ (WF0 z ∧ (WF x → WF z)) ∧
      (∀ τ, pl z.beginTime ≤ τ → τ ≤ pl z.endTime →
        (x.beginTime + (b - a) < x.endTime → a < b →
          τ ≤ mi z.endTime ∨ x.v (mi x.endTime) = x.v (pl x.endTime)) →
        Bot x.v (τ.shift a) (min (τ.shift b) (pl x.endTime)) (z.v τ)) ∧ (CG x → CG z) := by
  obtain ⟨z, h1, h2, h3, h4, h5, h6⟩ := computeTimedEventually_spec (B := B) (old := old) hx.not
    (hg.imp (fun h => by rw [computeNot_samples]; exact h.negs) CG.not) ha hab
    (fun h h' => (hk h h').not)
    (fun σ a b => by rw [v_not]; exact neg_le_neg (hB σ a b))
  refine ⟨computeNot z, ?_, h2, h3, ⟨h4.1.not, fun h => (h4.2 h.not).not⟩, ?_, fun hc => (h6 hc.not).not⟩
  · have := computeTimedGlobally_not B old (computeNot x) a b
    rw [computeNot_computeNot, h1] at this
    exact this
  · intro τ c d e
    have := h5 τ c d (fun g g' => (e g g').imp id (fun h => by rw [v_not, v_not]; exact congrArg Neg.neg h))
    rw [v_not, ← top_neg, neg_neg]
    have e : (computeNot x).v = fun σ => -x.v σ := by funext σ; exact v_not x σ
    rw [e] at this
    exact this

end STLRom
