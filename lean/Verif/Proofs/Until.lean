import Verif.Proofs.TopSup

/-!
# The untimed `until`
-/

namespace STLRom
open Signal

/-- `v` is the greatest number that some point `σ` between `τ` and `U` certifies: `Y` is at
least that much at `σ`, and `X` is at least that much from `τ` to `σ`. -/
def Unt (X Y : Pt → ℚ) (τ U : Pt) (v : ℚ) : Prop :=
  (∃ σ, τ ≤ σ ∧ σ ≤ U ∧ v ≤ Y σ ∧ ∀ ρ, τ ≤ ρ → ρ ≤ σ → v ≤ X ρ) ∧
  ∀ σ w, τ ≤ σ → σ ≤ U → w ≤ Y σ → (∀ ρ, τ ≤ ρ → ρ ≤ σ → w ≤ X ρ) → w ≤ v

theorem Unt.unique {X Y : Pt → ℚ} {τ U : Pt} {v w : ℚ} (h : Unt X Y τ U v) (h' : Unt X Y τ U w) :
    v = w := by
  obtain ⟨⟨σ, a, b, c, d⟩, h2⟩ := h
  obtain ⟨⟨σ', a', b', c', d'⟩, h2'⟩ := h'
  exact le_antisymm (h2' σ v a b c d) (h2 σ' w a' b' c' d')

theorem Unt.point {X Y : Pt → ℚ} {τ : Pt} {v : ℚ} (h : Unt X Y τ τ v) : v = min (X τ) (Y τ) := by
  obtain ⟨⟨σ, a, b, c, d⟩, h2⟩ := h
  have e : σ = τ := le_antisymm b a
  subst e
  refine le_antisymm (le_min (d _ le_rfl le_rfl) c) (h2 _ _ le_rfl le_rfl (min_le_right _ _) ?_)
  intro ρ h3 h4
  rw [le_antisymm h4 h3]
  exact min_le_left _ _

/-- What the backward scan knows when it has treated everything from `t` to the end `E`. -/
def Fut (B : ℚ) (X Y : Pt → ℚ) (t E zmax : ℚ) : Prop :=
  (t = E ∧ zmax = -B) ∨ (t < E ∧ Unt X Y (pl t) (mi E) zmax)

theorem unt_falling {B : ℚ} {X Y : Pt → ℚ} {t E zmax v1 : ℚ} {τ : Pt} (hτ : τ ≤ mi t)
    (hF : Fut B X Y t E zmax)
    (hX : ∀ ρ σ, τ ≤ ρ → ρ ≤ σ → σ ≤ mi t → X σ ≤ X ρ)
    (hT : Top (fun σ => min (X σ) (Y σ)) τ (mi t) v1) (hB : -B ≤ v1) :
    Unt X Y τ (mi E) (max (min zmax (X (mi t))) v1) := by
  have htE : t ≤ E := by
    rcases hF with ⟨h, _⟩ | ⟨h, _⟩
    · exact h.le
    · exact h.le
  constructor
  · rcases le_or_gt (min zmax (X (mi t))) v1 with h | h
    · rw [max_eq_right h]
      obtain ⟨σ, h1, h2, h3⟩ := hT.1
      refine ⟨σ, h1, h2.trans (by simpa using htE), by rw [← h3]; exact min_le_right _ _, ?_⟩
      intro ρ h4 h5
      rw [← h3]
      exact (min_le_left _ _).trans (hX ρ σ h4 h5 h2)
    · rw [max_eq_left h.le]
      rcases hF with ⟨_, h0⟩ | ⟨h0, hU⟩
      · have := min_le_left zmax (X (mi t))
        exfalso
        linarith
      · obtain ⟨σ, h1, h2, h3, h4⟩ := hU.1
        refine ⟨σ, hτ.trans (le_trans (by simp) h1), h2, (min_le_left _ _).trans h3, ?_⟩
        intro ρ h5 h6
        rcases le_or_gt ρ (mi t) with h7 | h7
        · exact (min_le_right _ _).trans (hX ρ _ h5 h7 le_rfl)
        · rw [mi_lt_iff] at h7
          exact (min_le_left _ _).trans (h4 ρ h7 h6)
  · intro σ w h1 h2 h3 h4
    rcases le_or_gt σ (mi t) with h7 | h7
    · exact (le_min (h4 σ h1 le_rfl) h3).trans ((hT.2 σ h1 h7).trans (le_max_right _ _))
    · refine le_trans (le_min ?_ (h4 _ hτ h7.le)) (le_max_left _ _)
      rw [mi_lt_iff] at h7
      rcases hF with ⟨h0, _⟩ | ⟨h0, hU⟩
      · have := h7.trans h2
        simp [h0] at this
      · exact hU.2 σ w h7 h2 h3 fun ρ h8 h9 => h4 ρ (hτ.trans (le_trans (by simp) h8)) h9

theorem unt_rising {B : ℚ} {X Y : Pt → ℚ} {t E zmax w1 : ℚ} {τ : Pt} (hτ : τ ≤ mi t)
    (hF : Fut B X Y t E zmax)
    (hX : ∀ ρ, τ ≤ ρ → ρ ≤ mi t → X τ ≤ X ρ)
    (hT : Top Y τ (mi t) w1) (hB : -B ≤ min (X τ) w1) :
    Unt X Y τ (mi E) (max (min (X τ) zmax) (min (X τ) w1)) := by
  have htE : t ≤ E := by
    rcases hF with ⟨h, _⟩ | ⟨h, _⟩
    · exact h.le
    · exact h.le
  constructor
  · rcases le_or_gt (min (X τ) zmax) (min (X τ) w1) with h | h
    · rw [max_eq_right h]
      obtain ⟨σ, h1, h2, h3⟩ := hT.1
      refine ⟨σ, h1, h2.trans (by simpa using htE), by rw [h3]; exact min_le_right _ _, ?_⟩
      intro ρ h4 h5
      exact (min_le_left _ _).trans (hX ρ h4 (h5.trans h2))
    · rw [max_eq_left h.le]
      rcases hF with ⟨_, h0⟩ | ⟨h0, hU⟩
      · have := min_le_right (X τ) zmax
        exfalso
        linarith
      · obtain ⟨σ, h1, h2, h3, h4⟩ := hU.1
        refine ⟨σ, hτ.trans (le_trans (by simp) h1), h2, (min_le_right _ _).trans h3, ?_⟩
        intro ρ h5 h6
        rcases le_or_gt ρ (mi t) with h7 | h7
        · exact (min_le_left _ _).trans (hX ρ h5 h7)
        · rw [mi_lt_iff] at h7
          exact (min_le_right _ _).trans (h4 ρ h7 h6)
  · intro σ w h1 h2 h3 h4
    have hw := h4 τ le_rfl h1
    rcases le_or_gt σ (mi t) with h7 | h7
    · exact (le_min hw (h3.trans (hT.2 σ h1 h7))).trans (le_max_right _ _)
    · refine le_trans (le_min hw ?_) (le_max_left _ _)
      rw [mi_lt_iff] at h7
      rcases hF with ⟨h0, _⟩ | ⟨h0, hU⟩
      · have := h7.trans h2
        simp [h0] at this
      · exact hU.2 σ w h7 h2 h3 fun ρ h8 h9 => h4 ρ (hτ.trans (le_trans (by simp) h8)) h9

/-! ## `computePartialEventually` on part of a reverse range -/

/-- Only the samples down to the first one at or before `s` matter, and that one may be moved to
`s` unless its piece falls. -/
theorem partialEventually_cut {s : ℚ} {j : Sample} (hj : j.time ≤ s)
    (hd : j.time = s ∨ 0 ≤ j.derivative) (rest : List Sample) :
    ∀ (pre z : List Sample) (t : ℚ) (c : Bool) (zm : ℚ), (∀ p ∈ pre, s < p.time) →
      partialEventually s z (pre ++ j :: rest) t c zm =
        (partialEventually s z (pre ++ [⟨s, j.valueAt s, j.derivative⟩]) t c zm).map
          fun r => (r.1, j :: rest)
  | [], z, t, c, zm, _ => by
    have h1 : ¬ s < j.time := not_lt.2 hj
    simp only [List.nil_append, partialEventually, if_neg h1, lt_irrefl, if_false, valueAt_move]
    rcases hd with hd | hd
    · have e : j.valueAt s = j.value := by rw [← hd, valueAt_self]
      split_ifs <;> simp only [Except.map, e]
      cases qdiv (zm - j.value) j.derivative <;> rfl
    · simp only [if_pos hd]
      split_ifs <;> rfl
  | p :: pre, z, t, c, zm, h => by
    have hp := h p (by simp)
    have hrec := fun z t c zm => partialEventually_cut hj hd rest pre z t c zm
      (fun q hq => h q (by simp [hq]))
    simp only [List.cons_append, partialEventually, if_pos hp, hrec]
    split_ifs <;> try rfl
    cases qdiv (zm - p.value) p.derivative <;> rfl

/-- Every sample written lies before the right end. -/
theorem partialEventually_lt {s t0 : ℚ} :
    ∀ (is z : List Sample) (t : ℚ) (c : Bool) (zm : ℚ) (r : List Sample × List Sample), s < t0 →
      (∀ p ∈ is, p.time < t0) → RSorted is → (∀ p ∈ is, p.time ≤ t) → s ≤ t → t ≤ t0 →
      (c = true → t < t0) →
      (∀ p ∈ is, s ≤ p.time) →
      (∀ p ∈ z, p.time < t0) → partialEventually s z is t c zm = .ok r →
      ∀ p ∈ r.1, p.time < t0
  | [], z, t, c, zm, r, _, _, _, _, _, _, _, _, _, h => by simp [partialEventually] at h
  | i :: is, z, t, c, zm, r, hs, his, hr, hit, hst, htt, hc, hfr, hz, h => by
    have hi := his i (by simp)
    have hitt := hit i (by simp)
    have hr' := List.pairwise_cons.1 hr
    have hz' : ∀ p ∈ pend t c zm z, p.time < t0 := by
      intro p hp
      unfold pend at hp
      split_ifs at hp with hc'
      · rcases List.mem_cons.1 hp with rfl | hp
        · exact hc hc'
        · exact hz p hp
      · exact hz p hp
    have hcross : i.derivative < 0 → ¬ zm ≤ i.valueAt t →
        i.time + (zm - i.value) / i.derivative < t0 := by
      intro hd hv
      refine lt_of_lt_of_le ?_ htt
      have h1 : (zm - i.value) / i.derivative < t - i.time := by
        rw [div_lt_iff_of_neg hd]
        simp only [Sample.valueAt, not_le] at hv
        linarith
      linarith
    have cons2 : ∀ {p : Sample} {l : List Sample}, p.time < t0 → (∀ q ∈ l, q.time < t0) →
        ∀ q ∈ p :: l, q.time < t0 := by
      intro p l h1 h2 q hq
      rcases List.mem_cons.1 hq with rfl | hq
      · exact h1
      · exact h2 q hq
    have next : ∀ z' c' zm', (∀ p ∈ z', p.time < t0) → s < i.time →
        partialEventually s z' is i.time c' zm' = .ok r → ∀ p ∈ r.1, p.time < t0 := by
      intro z' c' zm' h1 h0 h2
      exact partialEventually_lt is z' i.time c' zm' r hs (fun p hp => his p (by simp [hp])) hr'.2
        hr'.1 h0.le hi.le (fun _ => hi) (fun p hp => hfr p (by simp [hp])) h1 h2
    rw [partialEventually.eq_def] at h
    simp only [pend_eq] at h
    split_ifs at h with h0 h1 h2 h3 h4 h5 h6 h7 h8
    · exact next _ _ _ hz' h0 h
    · exact next _ _ _ hz h0 h
    · exact next _ _ _ (cons2 hi hz') h0 h
    · exact next _ _ _ hz h0 h
    · have hd := not_le.1 h1
      simp only [qdiv, hd.ne, if_false, bind, Except.bind] at h
      exact next _ _ _ (cons2 hi (cons2 (hcross hd h3) hz)) h0 h
    · cases h; exact cons2 hs hz'
    · cases h; exact cons2 hs hz
    · cases h; exact cons2 hs hz'
    · cases h; exact cons2 hs hz
    · have hd := not_le.1 h5
      have hsi : i.time = s := le_antisymm (not_lt.1 h0) (hfr i (by simp))
      simp only [qdiv, hd.ne, if_false, bind, Except.bind] at h
      cases h
      exact cons2 hs (cons2 (by rw [← hsi]; exact hcross hd h7) hz)

theorem rsorted_append_left {a b : List Sample} (h : RSorted (a ++ b)) : RSorted a :=
  (List.pairwise_append.1 h).1

/-- The scan over the last stretch `[s, t)` of a range. -/
theorem evSeg {B : ℚ} {Y : Pt → ℚ} {s t : ℚ} {pre rest : List Sample} {j : Sample}
    (hst : s < t) (hr : RSorted (pre ++ j :: rest)) (hlt : ∀ p ∈ pre, p.time < t)
    (hpre : ∀ p ∈ pre, s < p.time)
    (hj : j.time ≤ s) (hd : j.time = s ∨ 0 ≤ j.derivative)
    (hY : ∀ τ, pl s ≤ τ → τ ≤ mi t → valR (pre ++ j :: rest) τ = some (Y τ))
    (hg : ∀ p ∈ pre, p.value ≤ max (Y (mi p.time)) (Y (pl p.time)))
    (hB : -B ≤ Y (mi t)) :
    ∃ p r, partialEventually s [] (pre ++ j :: rest) t false (-B) = .ok (p :: r, j :: rest) ∧
      p.time = s ∧ (∀ q ∈ r, s < q.time ∧ q.time < t) ∧ Sorted (p :: r) ∧
      ∀ τ, pl s ≤ τ → τ ≤ mi t → ∃ v, val (p :: r) τ = some v ∧ Top Y τ (mi t) v := by
  set j0 : Sample := ⟨s, j.valueAt s, j.derivative⟩ with hj0
  have hr0 : RSorted (pre ++ [j0]) := by
    refine List.pairwise_append.2 ⟨rsorted_append_left hr, by simp, ?_⟩
    intro a ha b hb
    simp only [List.mem_singleton] at hb
    rw [hb]
    exact (hpre a ha).le
  have hJ' : EvJ False Y (mi t) (mi t) (pend t false (-B) []) (-B) := by
    refine ⟨fun σ h1 h2 => absurd h1 (not_lt.2 h2), ⟨mi t, le_rfl, le_rfl, hB⟩, ?_, ?_, ?_, ?_, ?_⟩
    · intro p hp; simp [pend] at hp
    · simp [pend, Sorted]
    · intro p hp; simp [pend] at hp
    · intro σ h1 h2; exact absurd h1 (not_lt.2 h2)
    · exact fun h => h.elim
  obtain ⟨z', is', h1, ⟨zm, h2⟩, p, r, h3, h4, h5⟩ := partialEventually_spec (s := s) (pre ++ [j0]) [] t
    false (-B) (mi t) hJ' rfl le_rfl (by simpa using hst) hr0
    (by
      intro p hp
      rcases List.mem_append.1 hp with hp | hp
      · simpa using (hlt p hp).le
      · simp only [List.mem_singleton] at hp
        rw [hp]; simpa [hj0] using hst.le)
    ⟨j0, by simp, rfl⟩
    (by
      intro p hp
      rcases List.mem_append.1 hp with hp | hp
      · exact (hpre p hp).le
      · simp only [List.mem_singleton] at hp
        rw [hp])
    (by
      intro τ a b
      rw [← hY τ a b]
      clear hr hr0 hJ' hY hg hlt
      induction pre with
      | nil =>
        have e1 : pl j0.time ≤ τ := a
        have e2 : pl j.time ≤ τ := le_trans (by simpa using hj) a
        rw [List.nil_append, List.nil_append, valR_cons_of_le e1, valR_cons_of_le e2, hj0,
          valueAt_move]
      | cons q pre ih =>
        simp only [List.cons_append]
        rcases le_or_gt (pl q.time) τ with h | h
        · rw [valR_cons_of_le h, valR_cons_of_le h]
        · rw [valR_cons_of_lt h, valR_cons_of_lt h]
          exact ih (fun p hp => hpre p (by simp [hp])))
    (by
      intro p hp hsp
      rcases List.mem_append.1 hp with hp | hp
      · exact ⟨hg p hp, by simpa using hlt p hp⟩
      · simp only [List.mem_singleton] at hp
        rw [hp] at hsp
        exact absurd hsp (lt_irrefl _))
    (fun h => h.elim)
  have hlt' := partialEventually_lt (t0 := t) (pre ++ [j0]) [] t false (-B) _ hst
    (by
      intro p hp
      rcases List.mem_append.1 hp with hp | hp
      · exact hlt p hp
      · simp only [List.mem_singleton] at hp
        rw [hp]; exact hst) hr0
    (by
      intro p hp
      rcases List.mem_append.1 hp with hp | hp
      · exact (hlt p hp).le
      · simp only [List.mem_singleton] at hp
        rw [hp]; exact hst.le) hst.le le_rfl (by simp)
    (by
      intro p hp
      rcases List.mem_append.1 hp with hp | hp
      · exact (hpre p hp).le
      · simp only [List.mem_singleton] at hp
        rw [hp]) (by simp) h1
  subst h3
  refine ⟨p, r, ?_, h4, fun q hq => ⟨h5 q hq, hlt' q (by simp [hq])⟩, h2.sorted, ?_⟩
  · rw [partialEventually_cut hj hd rest pre [] t false (-B) hpre, h1]
    rfl
  · intro τ a b
    exact h2.val τ (by rw [mi_lt_iff]; exact a) b

/-! ## Writing in front of what is already there -/

theorem gh_true (Y : Pt → ℚ) (s : ℚ) (K : List Sample) :
    ∀ (is : List Sample) (t : ℚ), Gh (fun _ _ => True) Y s K t is
  | [], _ => True.intro
  | _ :: is, _ => ⟨fun _ _ => ⟨fun _ _ _ => True.intro, True.intro⟩, gh_true Y s K is _⟩

/-- `z'` starts at `s`, denotes `F` up to `t` and what `z` denotes from `t` to `e`. -/
structure Ext (z z' : List Sample) (s t e : ℚ) (F : Pt → ℚ) : Prop where
  cons : ∃ p r, z' = p :: r ∧ p.time = s ∧ ∀ q ∈ r, s < q.time ∧ q.time < e
  sorted : Sorted z'
  new : ∀ τ, pl s ≤ τ → τ ≤ mi t → val z' τ = some (F τ)
  old : ∀ τ, pl t ≤ τ → τ ≤ mi e → val z' τ = val z τ

/-- The part from `t` on that is already there. -/
structure Tail (z : List Sample) (t e : ℚ) : Prop where
  sorted : Sorted z
  from' : From t z
  lt : ∀ q ∈ z, q.time < e
  def' : ∀ τ, pl t ≤ τ → τ ≤ mi e → ∃ v, val z τ = some v

theorem Tail.nil (e : ℚ) : Tail [] e e :=
  ⟨by simp [Sorted], fun _ h => by simp at h, fun _ h => by simp at h,
    fun τ h1 h2 => by have := h1.trans h2; simp at this⟩

theorem Ext.tail {z z' : List Sample} {s t e : ℚ} {F : Pt → ℚ} (h : Ext z z' s t e F)
    (hz : Tail z t e) (hse : s < e) : Tail z' s e := by
  obtain ⟨p, r, h1, h2, h3⟩ := h.cons
  refine ⟨h.sorted, ?_, ?_, ?_⟩
  · intro q hq
    rw [h1] at hq
    rcases List.mem_cons.1 hq with rfl | hq
    · exact h2.ge
    · exact (h3 q hq).1.le
  · intro q hq
    rw [h1] at hq
    rcases List.mem_cons.1 hq with rfl | hq
    · rw [h2]; exact hse
    · exact (h3 q hq).2
  · intro τ a b
    rcases le_or_gt τ (mi t) with h4 | h4
    · exact ⟨_, h.new τ a h4⟩
    · rw [mi_lt_iff] at h4
      rw [h.old τ h4 b]
      exact hz.def' τ h4 b

theorem done_neg {z : List Sample} {t e : ℚ} (hz : Tail z t e) (X Y : Pt → ℚ) :
    Done (negs z) t e (fun τ => min
      (if τ ≤ mi t then -X τ else -(val z τ).getD 0)
      (if τ ≤ mi t then -Y τ else -(val z τ).getD 0)) := by
  refine ⟨sorted_negs hz.sorted, ?_, ?_⟩
  · intro q hq
    obtain ⟨q', hq', rfl⟩ := List.mem_map.1 hq
    exact hz.from' q' hq'
  · intro τ a b
    have h1 : ¬ τ ≤ mi t := not_le.2 a
    rw [mi_lt_iff] at a
    obtain ⟨v, hv⟩ := hz.def' τ a b
    simp [h1, val_negs, hv]

theorem ext_of_done {p : Sample} {z r : List Sample} {s t e : ℚ} {X Y : Pt → ℚ} (hz : Tail z t e)
    (hp : p.time = s)
    (hD : Done (p :: r) s e (fun τ => min
      (if τ ≤ mi t then -X τ else -(val z τ).getD 0)
      (if τ ≤ mi t then -Y τ else -(val z τ).getD 0)))
    (hB : Btw (fun _ _ => True) s e r) (hst : s ≤ t) (hte : t ≤ e) :
    Ext z (negs (p :: r)) s t e (fun τ => max (X τ) (Y τ)) := by
  refine ⟨⟨p.neg, negs r, rfl, hp, ?_⟩, sorted_negs hD.sorted, ?_, ?_⟩
  · intro q hq
    obtain ⟨q', hq', rfl⟩ := List.mem_map.1 hq
    exact ⟨(hB q' hq').1, (hB q' hq').2.1⟩
  · intro τ a b
    have := hD.den τ (by rw [mi_lt_iff]; exact a) (b.trans (by simpa using hte))
    rw [val_negs, this]
    simp [b, min_neg_neg]
  · intro τ a b
    have h1 : ¬ τ ≤ mi t := not_le.2 (by rw [mi_lt_iff]; exact a)
    have := hD.den τ (by rw [mi_lt_iff]; exact le_trans (by simpa using hst) a) b
    obtain ⟨v, hv⟩ := hz.def' τ a b
    rw [val_negs, this, hv]
    simp [h1]

theorem valR_negs (l : List Sample) (τ : Pt) : valR (negs l) τ = (valR l τ).map Neg.neg := by
  rw [← List.reverse_reverse (negs l), ← val_eq_valR, ← List.map_reverse, val_negs, val_eq_valR,
    List.reverse_reverse]

theorem segmentOr_ext {X Y : Pt → ℚ} {e : ℚ} {i : Sample} {js z : List Sample} {t : ℚ}
    (hit : i.time < t) (hte : t ≤ e)
    (hX : ∀ τ, pl i.time ≤ τ → τ ≤ mi t → i.valueAt τ.time = X τ)
    (hY : ∀ τ, pl i.time ≤ τ → τ ≤ mi t → valR js τ = some (Y τ))
    (hsrt : RSorted js) (hjt : ∀ j ∈ js, j.time < t)
    (hex : ∃ j ∈ js, j.time ≤ i.time) (hz : Tail z t e) :
    ∃ z' js', segmentOr z i t js = .ok (z', js') ∧
      Ext z z' i.time t e (fun τ => max (X τ) (Y τ)) := by
  obtain ⟨p, z', j, js', h1, h2, -, -, -, h3, h4⟩ := segmentAnd_spec (P := fun _ _ => True)
    (X := fun τ => if τ ≤ mi t then -X τ else -(val z τ).getD 0)
    (Y := fun τ => if τ ≤ mi t then -Y τ else -(val z τ).getD 0)
    (e := e) (i := i.neg) (js := negs js) (z := negs z) (t := t) hit.le hte
    (fun τ a b => by simp only [if_pos b]; rw [Sample.neg_valueAt, hX τ a b])
    (fun τ a b => by rw [valR_negs, hY τ a b]; simp [b])
    (List.pairwise_map.2 (by simpa [RSorted] using hsrt))
    (fun j hj => by
      obtain ⟨j', hj', rfl⟩ := List.mem_map.1 hj
      exact ⟨(hjt j' hj').le, (hjt j' hj').trans_le hte⟩)
    (by
      obtain ⟨j, hj, hj'⟩ := hex
      exact ⟨j.neg, List.mem_map_of_mem hj, hj'⟩)
    (done_neg hz X Y)
    (fun q hq => by
      obtain ⟨q', hq', rfl⟩ := List.mem_map.1 hq
      exact ⟨hit.trans_le (hz.from' q' hq'), hz.lt q' hq', True.intro⟩)
    (fun _ _ _ => True.intro) (fun _ _ _ => True.intro)
  rw [segmentAnd_neg] at h1
  cases hc : segmentOr z i t js with
  | error f => rw [hc] at h1; cases h1
  | ok r =>
    rw [hc] at h1
    obtain ⟨r1, r2⟩ := r
    simp only [Except.map, Except.ok.injEq, Prod.mk.injEq] at h1
    refine ⟨r1, r2, rfl, ?_⟩
    have h5 : r1 = negs (p :: z') := by
      rw [← h1.1]
      simp [Sample.neg_neg_comp]
    rw [h5]
    exact ext_of_done hz h2 h3 h4 hit.le hte

theorem partialOr_ext {X Y : Pt → ℚ} {e s : ℚ} {is js z : List Sample} {t : ℚ}
    (hst : s < t) (hte : t ≤ e)
    (hX : ∀ τ, pl s ≤ τ → τ ≤ mi t → valR is τ = some (X τ))
    (hY : ∀ τ, pl s ≤ τ → τ ≤ mi t → valR js τ = some (Y τ))
    (his : RSorted is) (hjs : RSorted js) (hit : ∀ i ∈ is, i.time < t) (hjt : ∀ j ∈ js, j.time < t)
    (hei : ∃ j ∈ is, j.time ≤ s) (hej : ∃ j ∈ js, j.time ≤ s) (hz : Tail z t e) :
    ∃ z', partialOr s z is js t = .ok z' ∧ Ext z z' s t e (fun τ => max (X τ) (Y τ)) := by
  have mem : ∀ {l : List Sample}, (∀ j ∈ l, j.time < t) → ∀ j ∈ negs l, j.time ≤ t ∧ j.time < e := by
    intro l h j hj
    obtain ⟨j', hj', rfl⟩ := List.mem_map.1 hj
    exact ⟨(h j' hj').le, (h j' hj').trans_le hte⟩
  have mex : ∀ {l : List Sample}, (∃ j ∈ l, j.time ≤ s) → ∃ j ∈ negs l, j.time ≤ s := by
    rintro l ⟨j, hj, hj'⟩
    exact ⟨j.neg, List.mem_map_of_mem hj, hj'⟩
  obtain ⟨p, z', h1, h2, h3, h4⟩ := partialAnd_spec (P := fun _ _ => True)
    (X := fun τ => if τ ≤ mi t then -X τ else -(val z τ).getD 0)
    (Y := fun τ => if τ ≤ mi t then -Y τ else -(val z τ).getD 0)
    (e := e) (s := s) (K := negs js) (fun _ _ _ => True.intro) (negs is) (negs js) (negs z) t hst hte
    (fun τ a b => by rw [valR_negs, hX τ a b]; simp [b])
    (fun τ a b => by rw [valR_negs, hY τ a b]; simp [b])
    (List.pairwise_map.2 (by simpa [RSorted] using his))
    (List.pairwise_map.2 (by simpa [RSorted] using hjs))
    (mem hit) (mem hjt) (mex hei) (mex hej)
    (done_neg hz X Y)
    (fun q hq => by
      obtain ⟨q', hq', rfl⟩ := List.mem_map.1 hq
      exact ⟨hst.trans_le (hz.from' q' hq'), hz.lt q' hq', True.intro⟩)
    (fun _ _ _ => True.intro) (fun _ h => h) (gh_true _ _ _ _ _)
  rw [partialAnd_neg] at h1
  cases hc : partialOr s z is js t with
  | error f => rw [hc] at h1; cases h1
  | ok r =>
    rw [hc] at h1
    simp only [Except.map, Except.ok.injEq] at h1
    refine ⟨r, rfl, ?_⟩
    have h5 : r = negs (p :: z') := by
      rw [← h1]
      simp [Sample.neg_neg_comp]
    rw [h5]
    exact ext_of_done hz h2 h3 h4 hst.le hte

/-! ## One piece of the left operand -/

theorem exists_cut {s : ℚ} : ∀ {l : List Sample}, (∃ p ∈ l, p.time ≤ s) →
    ∃ pre j rest, l = pre ++ j :: rest ∧ (∀ p ∈ pre, s < p.time) ∧ j.time ≤ s
  | [], h => by simp at h
  | p :: l, h => by
    rcases le_or_gt p.time s with hp | hp
    · exact ⟨[], p, l, rfl, by simp, hp⟩
    · obtain ⟨q, hq, hqs⟩ := h
      have : ∃ p ∈ l, p.time ≤ s := by
        rcases List.mem_cons.1 hq with rfl | hq
        · exact absurd hqs (not_le.2 hp)
        · exact ⟨q, hq, hqs⟩
      obtain ⟨pre, j, rest, h1, h2, h3⟩ := exists_cut this
      refine ⟨p :: pre, j, rest, by rw [h1]; rfl, ?_, h3⟩
      intro r hr
      rcases List.mem_cons.1 hr with rfl | hr
      · exact hp
      · exact h2 r hr

theorem valueAt_anti {i : Sample} (h : i.derivative ≤ 0) {a b : ℚ} (hab : a ≤ b) :
    i.valueAt b ≤ i.valueAt a := by
  simp only [Sample.valueAt]
  have := mul_le_mul_of_nonpos_left (sub_le_sub_right hab i.time) h
  linarith

theorem valueAt_mono {i : Sample} (h : 0 ≤ i.derivative) {a b : ℚ} (hab : a ≤ b) :
    i.valueAt a ≤ i.valueAt b := by
  simp only [Sample.valueAt]
  have := mul_le_mul_of_nonneg_left (sub_le_sub_right hab i.time) h
  linarith

theorem segmentUntil_spec {B : ℚ} {X Y : Pt → ℚ} {e : ℚ} {i : Sample} {js z : List Sample}
    {t zmax : ℚ} (hit : i.time < t) (hte : t ≤ e)
    (hX : ∀ τ, pl i.time ≤ τ → τ ≤ mi t → i.valueAt τ.time = X τ)
    (hY : ∀ τ, pl i.time ≤ τ → τ ≤ mi t → valR js τ = some (Y τ))
    (hsrt : RSorted js) (hjt : ∀ j ∈ js, j.time < t)
    (hex : ∃ j ∈ js, j.time ≤ i.time)
    (hg : ∀ j ∈ js, i.time < j.time → j.value ≤ max (Y (mi j.time)) (Y (pl j.time)))
    (hBX : ∀ τ, pl i.time ≤ τ → τ ≤ mi t → -B ≤ X τ) (hBY : -B ≤ Y (mi t))
    (hL : 0 < i.derivative → ∀ pre j rest, js = pre ++ j :: rest → (∀ p ∈ pre, i.time < p.time) →
      j.time ≤ i.time → j.time = i.time ∨ 0 ≤ j.derivative)
    (hz : Tail z t e) (hF : Fut B X Y t e zmax) :
    ∃ z' j js' F, segmentUntil B z i t js zmax = .ok (z', j :: js') ∧ j.time ≤ i.time ∧
      (∃ pre, js = pre ++ j :: js' ∧ ∀ p ∈ pre, i.time < p.time) ∧
      Ext z z' i.time t e F ∧ ∀ τ, pl i.time ≤ τ → τ ≤ mi t → Unt X Y τ (mi e) (F τ) := by
  have hXt : i.valueAt t = X (mi t) := by
    have := hX (mi t) (by simpa using hit) le_rfl
    simpa using this
  by_cases hd : i.derivative ≤ 0
  · set f : Pt → ℚ := fun τ => min (X τ) (Y τ) with hf
    obtain ⟨p1, z1, j, js', a1, a2, -, a4, a5, a6, a7⟩ := segmentAnd_spec
      (P := fun T v => v ≤ max (f (mi T)) (f (pl T))) (X := X) (Y := Y) (e := t) (i := i) (js := js)
      (z := []) hit.le le_rfl hX hY hsrt (fun j hj => ⟨(hjt j hj).le, hjt j hj⟩) hex
      (Done.nil t _) (fun _ h => by simp at h) (fun T _ _ => le_max_right _ _)
      (fun j hj hij => by
        have h1 := hX (mi j.time) (by simpa using hij) (by simpa using (hjt j hj).le)
        have h2 := hX (pl j.time) (by simpa using hij.le) (by simpa using hjt j hj)
        simp only [mi_time, pl_time] at h1 h2
        simp only [hf]
        rw [h1, ← h2, h1]
        have h3 := hg j hj hij
        rcases le_total (Y (mi j.time)) (Y (pl j.time)) with h | h
        · rw [max_eq_right h] at h3
          exact (min_le_min_left _ h3).trans (le_max_right _ _)
        · rw [max_eq_left h] at h3
          exact (min_le_min_left _ h3).trans (le_max_left _ _))
    obtain ⟨p2, r2, b1, b2, b3, b4, b5⟩ := evSeg (B := B) (Y := f) (s := i.time) (t := t)
      (pre := z1.reverse) (rest := []) (j := p1) hit
      (by
        have := rsorted_reverse.2 a6.sorted
        rwa [List.reverse_cons] at this)
      (fun p hp => (a7 p (List.mem_reverse.1 hp)).2.1) (fun p hp => (a7 p (List.mem_reverse.1 hp)).1)
      a2.le (Or.inl a2)
      (fun τ c d => by
        rw [← List.reverse_cons, ← val_eq_valR]
        exact a6.den τ (by rw [mi_lt_iff]; exact c) d)
      (fun p hp => (a7 p (List.mem_reverse.1 hp)).2.2)
      (le_min (hBX _ (by simpa using hit) le_rfl) hBY)
    obtain ⟨z', js2, c1, c2⟩ := segmentOr_ext (X := fun _ => min zmax (X (mi t)))
      (Y := fun τ => (val (p2 :: r2) τ).getD 0) (e := e) (z := z)
      (i := ⟨i.time, fmin zmax (i.valueAt t), 0⟩) (js := (p2 :: r2).reverse) (t := t) hit hte
      (fun τ _ _ => by simp [Sample.valueAt, fmin_eq, ← hXt])
      (fun τ a b => by
        obtain ⟨v, hv, _⟩ := b5 τ a b
        rw [← val_eq_valR, hv]; rfl)
      (rsorted_reverse.2 b4)
      (fun q hq => by
        rcases List.mem_cons.1 (List.mem_reverse.1 hq) with rfl | hq
        · rw [b2]; exact hit
        · exact (b3 q hq).2)
      ⟨p2, by simp, b2.le⟩ hz
    refine ⟨z', j, js', _, ?_, a4, a5, c2, ?_⟩
    · simp only [segmentUntil, if_pos hd, a1, bind, Except.bind, List.reverse_cons, b1]
      rw [List.reverse_cons] at c1
      rw [c1]
    · intro τ c d
      obtain ⟨v, hv, hT⟩ := b5 τ c d
      have := unt_falling (B := B) (v1 := v) (zmax := zmax) (E := e) d hF
        (fun ρ σ h1 h2 h3 => by
          rw [← hX ρ (c.trans h1) (h2.trans h3), ← hX σ (c.trans (h1.trans h2)) h3]
          exact valueAt_anti hd (Pt.time_le h2)) hT
        ((le_min (hBX _ (by simpa using hit) le_rfl) hBY).trans (hT.2 _ d le_rfl))
      simpa [hv] using this
  · have hd' := not_le.1 hd
    obtain ⟨pre, j, rest, e1, e2, e3⟩ := exists_cut hex
    subst e1
    obtain ⟨p1, r1, b1, b2, b3, b4, b5⟩ := evSeg (B := B) (Y := Y) hit hsrt
      (fun p hp => hjt p (by simp [hp])) e2 e3 (hL hd' pre j rest rfl e2 e3) hY
      (fun p hp => hg p (by simp [hp]) (e2 p hp)) hBY
    set W : Pt → ℚ := fun τ => (val (p1 :: r1) τ).getD 0 with hW
    have hlt1 : ∀ q ∈ (p1 :: r1).reverse, q.time < t := by
      intro q hq
      rcases List.mem_cons.1 (List.mem_reverse.1 hq) with rfl | hq
      · rw [b2]; exact hit
      · exact (b3 q hq).2
    obtain ⟨p2, r2, j2, js2, c1, c2, -, -, -, c6, c7⟩ := segmentAnd_spec
      (P := fun _ _ => True) (X := X) (Y := W) (e := t) (i := i) (js := (p1 :: r1).reverse)
      (z := []) hit.le le_rfl hX
      (fun τ a b => by
        obtain ⟨v, hv, _⟩ := b5 τ a b
        rw [← val_eq_valR, hW, hv]; simp only [hv, Option.getD_some])
      (rsorted_reverse.2 b4) (fun j hj => ⟨(hlt1 j hj).le, hlt1 j hj⟩) ⟨p1, by simp, b2.le⟩
      (Done.nil t _) (fun _ h => by simp at h) (fun _ _ _ => True.intro) (fun _ _ _ => True.intro)
    obtain ⟨p3, r3, j3, js3, d1, d2, -, -, -, d6, d7⟩ := segmentAnd_spec
      (P := fun _ _ => True) (X := X) (Y := fun _ => zmax) (e := t) (i := i)
      (js := [⟨i.time, zmax, 0⟩])
      (z := []) hit.le le_rfl hX
      (fun τ a b => by
        rw [valR_cons_of_le (p := ⟨i.time, zmax, 0⟩) a]; simp [Sample.valueAt])
      (by simp [RSorted]) (fun j hj => by simp at hj; subst hj; exact ⟨hit.le, hit⟩)
      ⟨⟨i.time, zmax, 0⟩, by simp, le_rfl⟩
      (Done.nil t _) (fun _ h => by simp at h) (fun _ _ _ => True.intro) (fun _ _ _ => True.intro)
    have ltc : ∀ {p : Sample} {r : List Sample}, p.time = i.time →
        Btw (fun _ _ => True) i.time t r → ∀ q ∈ (p :: r).reverse, q.time < t := by
      intro p r h1 h2 q hq
      rcases List.mem_cons.1 (List.mem_reverse.1 hq) with rfl | hq
      · rw [h1]; exact hit
      · exact (h2 q hq).2.1
    obtain ⟨z', f1, f2⟩ := partialOr_ext (X := fun τ => min (X τ) zmax)
      (Y := fun τ => min (X τ) (W τ)) (e := e) (z := z) (s := i.time) (is := (p3 :: r3).reverse)
      (js := (p2 :: r2).reverse) (t := t) hit hte
      (fun τ a b => by
        rw [← val_eq_valR]
        exact d6.den τ (by rw [mi_lt_iff]; exact a) b)
      (fun τ a b => by
        rw [← val_eq_valR]
        exact c6.den τ (by rw [mi_lt_iff]; exact a) b)
      (rsorted_reverse.2 d6.sorted) (rsorted_reverse.2 c6.sorted) (ltc d2 d7) (ltc c2 c7)
      ⟨p3, by simp, d2.le⟩ ⟨p2, by simp, c2.le⟩ hz
    refine ⟨z', j, rest, _, ?_, e3, ⟨pre, rfl, e2⟩, f2, ?_⟩
    · simp only [segmentUntil, if_neg hd, b1, bind, Except.bind, c1, d1, f1]
    · intro τ c d
      obtain ⟨v, hv, hT⟩ := b5 τ c d
      have := unt_rising (B := B) (w1 := v) (zmax := zmax) (E := e) d hF
        (fun ρ h1 h2 => by
          rw [← hX ρ (c.trans h1) h2, ← hX τ c d]
          exact valueAt_mono hd'.le (Pt.time_le h1)) hT
        (le_min (hBX _ c d) (hBY.trans (hT.2 _ d le_rfl)))
      simpa [hW, hv] using this

/-! ## The main loop -/

/-- Times strictly decrease along a reverse range. -/
def RInc (l : List Sample) : Prop := l.Pairwise fun p q => q.time < p.time

theorem RInc.rsorted {l : List Sample} (h : RInc l) : RSorted l := h.imp fun h => h.le

theorem Ext.front {z z' : List Sample} {s t e : ℚ} {F : Pt → ℚ} (h : Ext z z' s t e F)
    (hst : s < t) : ∃ p r, z' = p :: r ∧ p.time = s ∧ p.value = F (pl s) ∧
      ∀ q ∈ r, s < q.time ∧ q.time < e := by
  obtain ⟨p, r, h1, h2, h3⟩ := h.cons
  refine ⟨p, r, h1, h2, ?_, h3⟩
  have := h.new (pl s) le_rfl (by simpa using hst)
  rw [h1, val_cons_of_lt (fun q hq => by simpa using (h3 q hq).1) (by rw [h2])] at this
  rw [← Option.some.inj this, pl_time, ← h2, valueAt_self]

theorem untilLoop_spec {B : ℚ} {X Y : Pt → ℚ} {e s : ℚ}
    (hBX : ∀ τ, pl s ≤ τ → τ ≤ mi e → -B ≤ X τ) (hBY : ∀ τ, pl s ≤ τ → τ ≤ mi e → -B ≤ Y τ) :
    ∀ (is js z : List Sample) (t zmax : ℚ), s < t → t ≤ e →
      (∀ τ, pl s ≤ τ → τ ≤ mi t → valR is τ = some (X τ)) →
      (∀ τ, pl s ≤ τ → τ ≤ mi t → valR js τ = some (Y τ)) →
      RInc is → RInc js → (∀ i ∈ is, i.time < t) → (∀ j ∈ js, j.time < t) →
      (∃ i ∈ is, i.time ≤ s) → (∃ j ∈ js, j.time ≤ s) →
      (∀ j ∈ js, s < j.time → j.value ≤ max (Y (mi j.time)) (Y (pl j.time))) →
      (∀ i ∈ is, 0 < i.derivative → ∀ pre j rest, js = pre ++ j :: rest →
        (∀ p ∈ pre, max s i.time < p.time) → j.time ≤ max s i.time →
        j.time = max s i.time ∨ 0 ≤ j.derivative) →
      Tail z t e → Fut B X Y t e zmax →
      (∀ τ, pl t ≤ τ → τ ≤ mi e → ∃ v, val z τ = some v ∧ Unt X Y τ (mi e) v) →
      ∃ p r, untilLoop B s z is js t zmax = .ok (p :: r) ∧ p.time = s ∧
        (∀ q ∈ r, s < q.time ∧ q.time < e) ∧ Sorted (p :: r) ∧
        ∀ τ, pl s ≤ τ → τ ≤ mi e → ∃ v, val (p :: r) τ = some v ∧ Unt X Y τ (mi e) v
  | [], _, _, _, _, _, _, _, _, _, _, _, _, h, _, _, _, _, _, _ => by
    obtain ⟨_, h, _⟩ := h; simp at h
  | i :: is, js, z, t, zmax, hst, hte, hX, hY, his, hjs, hit, hjt, hei, hej, hg, hL, hz, hF, hU => by
    have hit1 := hit i (by simp)
    have his' := List.pairwise_cons.1 his
    have glue : ∀ {z' : List Sample} {u : ℚ} {F : Pt → ℚ}, Ext z z' u t e F →
        (∀ τ, pl u ≤ τ → τ ≤ mi t → Unt X Y τ (mi e) (F τ)) →
        ∀ τ, pl u ≤ τ → τ ≤ mi e → ∃ v, val z' τ = some v ∧ Unt X Y τ (mi e) v := by
      intro z' u F h1 h2 τ a b
      rcases le_or_gt τ (mi t) with h4 | h4
      · exact ⟨_, h1.new τ a h4, h2 τ a h4⟩
      · rw [mi_lt_iff] at h4
        rw [h1.old τ h4 b]
        exact hU τ h4 b
    rw [untilLoop]
    by_cases h1 : s < i.time
    · rw [if_pos h1]
      have hle : pl s ≤ pl i.time := by simpa using h1.le
      have hme : mi t ≤ mi e := by simpa using hte
      obtain ⟨z', j, js', F, a1, a2, ⟨pre, a3, a3'⟩, a4, a5⟩ := segmentUntil_spec (B := B) hit1 hte
        (fun τ a b => by
          have := hX τ (hle.trans a) b
          rw [valR_cons_of_le a] at this
          exact Option.some.inj this)
        (fun τ a b => hY τ (hle.trans a) b) hjs.rsorted hjt
        (by obtain ⟨j, hj, hj'⟩ := hej; exact ⟨j, hj, hj'.trans h1.le⟩)
        (fun j hj hij => hg j hj (h1.trans hij))
        (fun τ a b => hBX τ (hle.trans a) (b.trans hme))
        (hBY _ (by simpa using hst) hme)
        (by
          have := hL i (by simp)
          rwa [max_eq_right h1.le] at this) hz hF
      have hie := hit1.trans_le hte
      obtain ⟨f, r, b1, b2, b3, b4⟩ := a4.front hit1
      have hjs' : RInc (j :: js') := by rw [a3] at hjs; exact (List.pairwise_append.1 hjs).2.1
      set js2 := if j.time = i.time then js' else j :: js' with hjs2
      have hsub : ∃ pre2, js = pre2 ++ js2 ∧ ∀ p ∈ pre2, i.time ≤ p.time := by
        by_cases hji : j.time = i.time
        · refine ⟨pre ++ [j], by rw [hjs2, if_pos hji, a3]; simp, ?_⟩
          intro p hp
          rcases List.mem_append.1 hp with hp | hp
          · exact (a3' p hp).le
          · simp only [List.mem_singleton] at hp
            rw [hp, hji]
        · exact ⟨pre, by rw [hjs2, if_neg hji, a3], fun p hp => (a3' p hp).le⟩
      obtain ⟨pre2, c1, c2⟩ := hsub
      have hmem : ∀ p ∈ js2, p ∈ js := by intro p hp; rw [c1]; simp [hp]
      have hlt2 : ∀ p ∈ js2, p.time < i.time := by
        intro p hp
        have hc := List.pairwise_cons.1 hjs'
        by_cases hji : j.time = i.time
        · rw [hjs2, if_pos hji] at hp
          exact (hc.1 p hp).trans_le a2
        · rw [hjs2, if_neg hji] at hp
          rcases List.mem_cons.1 hp with rfl | hp
          · exact lt_of_le_of_ne a2 hji
          · exact (hc.1 p hp).trans_le a2
      simp only [a1, bind, Except.bind, b1]
      have hrec := untilLoop_spec hBX hBY is js2 z' i.time f.value h1 hie.le
        (fun τ a b => by
          rw [← hX τ a (b.trans (by simpa using hit1.le)), valR_cons_of_lt]
          exact lt_of_le_of_lt b (by simp))
        (fun τ a b => by
          rw [← hY τ a (b.trans (by simpa using hit1.le)), c1, valR_prefix]
          intro p hp
          exact lt_of_le_of_lt b (by simpa using c2 p hp))
        his'.2 (by rw [c1] at hjs; exact (List.pairwise_append.1 hjs).2.1)
        his'.1 hlt2
        (by
          obtain ⟨p, hp, hps⟩ := hei
          rcases List.mem_cons.1 hp with rfl | hp
          · exact absurd h1 (not_lt.2 hps)
          · exact ⟨p, hp, hps⟩)
        (by
          obtain ⟨p, hp, hps⟩ := hej
          rw [c1] at hp
          rcases List.mem_append.1 hp with hp | hp
          · exact absurd (h1.trans_le (c2 p hp)) (not_lt.2 hps)
          · exact ⟨p, hp, hps⟩)
        (fun j hj => hg j (hmem j hj))
        (by
          intro k hk hkd pre3 j3 rest3 h3 h4 h5
          refine hL k (by simp [hk]) hkd (pre2 ++ pre3) j3 rest3 (by rw [c1, h3]; simp) ?_ h5
          intro p hp
          rcases List.mem_append.1 hp with hp | hp
          · exact (max_lt h1 (his'.1 k hk)).trans_le (c2 p hp)
          · exact h4 p hp)
        (a4.tail hz hie)
        (Or.inr ⟨hie, by rw [b3]; exact a5 _ le_rfl (by simpa using hit1)⟩)
        (glue a4 a5)
      rw [b1] at hrec
      exact hrec
    · rw [if_neg h1]
      set i0 : Sample := ⟨s, i.valueAt s, i.derivative⟩ with hi0
      have hseg : ∃ z' js' F, segmentUntil B z i0 t js zmax = .ok (z', js') ∧
          Ext z z' s t e F ∧ ∀ τ, pl s ≤ τ → τ ≤ mi t → Unt X Y τ (mi e) (F τ) := by
        have hme : mi t ≤ mi e := by simpa using hte
        obtain ⟨z', j, js', F, a1, a2, -, a4, a5⟩ := segmentUntil_spec (B := B) (i := i0) hst hte
          (fun τ a b => by
            have a' : pl i.time ≤ τ := le_trans (by simpa using h1) a
            have := hX τ a b
            rw [valR_cons_of_le a'] at this
            rw [hi0, valueAt_move]
            exact Option.some.inj this)
          (fun τ a b => hY τ a b) hjs.rsorted hjt hej
          (fun j hj hij => hg j hj hij)
          (fun τ a b => hBX τ a (b.trans hme))
          (hBY _ (by simpa using hst) hme)
          (by
            have := hL i (by simp)
            rwa [max_eq_left (not_lt.1 h1)] at this) hz hF
        exact ⟨z', _, F, a1, a4, a5⟩
      obtain ⟨z', js', F, a1, a4, a5⟩ := hseg
      obtain ⟨p, r, b1, b2, b3⟩ := a4.cons
      have hfin : z' = p :: r ∧ p.time = s ∧
        (∀ q ∈ r, s < q.time ∧ q.time < e) ∧ Sorted (p :: r) ∧
        ∀ τ, pl s ≤ τ → τ ≤ mi e → ∃ v, val (p :: r) τ = some v ∧ Unt X Y τ (mi e) v :=
        ⟨b1, b2, b3, b1 ▸ a4.sorted, b1 ▸ glue a4 a5⟩
      by_cases h2 : i.time = s
      · have hii : i0 = i := by
          cases i
          simp only at h2
          subst h2
          simp [hi0, Sample.valueAt]
        rw [if_pos h2, ← hii, a1]
        exact ⟨p, r, by simp only [bind, Except.bind, b1], hfin.2⟩
      · rw [if_neg h2, a1]
        exact ⟨p, r, by simp only [bind, Except.bind, b1], hfin.2⟩

theorem rinc_reverse {l : List Sample} : RInc l.reverse ↔ SInc l := by
  simp [RInc, SInc, List.pairwise_reverse]

/-- The body shared by `compute_until` and `computeUntil`. -/
theorem until_core {B : ℚ} {x y : Signal} (hx : WF0 x) (hy : WF0 y) (ix : SInc x.samples)
    (iy : SInc y.samples) (hlt : max x.beginTime y.beginTime < min x.endTime y.endTime)
    (hBx : ∀ σ, pl x.beginTime ≤ σ → σ ≤ pl x.endTime → -B ≤ x.v σ)
    (hBy : ∀ σ, pl y.beginTime ≤ σ → σ ≤ pl y.endTime → -B ≤ y.v σ)
    (hL : Spec.RisesClear x y) :
    ∃ is js z, skip (min x.endTime y.endTime) x.samples.reverse = .ok is ∧
      skip (min x.endTime y.endTime) y.samples.reverse = .ok js ∧
      ∃ l, untilLoop B (max x.beginTime y.beginTime) [] is js (min x.endTime y.endTime) (-B) = .ok l ∧
      simplify ⟨l, max x.beginTime y.beginTime, min x.endTime y.endTime⟩ = .ok z ∧
      z.beginTime = max x.beginTime y.beginTime ∧ z.endTime = min x.endTime y.endTime ∧ WF z ∧
      (∀ τ, pl (max x.beginTime y.beginTime) ≤ τ → τ ≤ mi (min x.endTime y.endTime) →
        Unt x.v y.v τ (mi (min x.endTime y.endTime)) (z.v τ)) ∧
      z.v (pl (min x.endTime y.endTime)) = z.v (mi (min x.endTime y.endTime)) := by
  set b := max x.beginTime y.beginTime with hb
  set e := min x.endTime y.endTime with he
  have hbx : x.beginTime ≤ b := le_max_left _ _
  have hby : y.beginTime ≤ b := le_max_right _ _
  have hex : e ≤ x.endTime := min_le_left _ _
  have hey : e ≤ y.endTime := min_le_right _ _
  have side : ∀ {x : Signal}, WF0 x → SInc x.samples → x.beginTime ≤ b → ∃ is,
      skip e x.samples.reverse = .ok is ∧
      RInc is ∧ (∀ p ∈ is, p.time < e) ∧ (∃ p ∈ is, p.time ≤ b) ∧ (∀ p ∈ is, p ∈ x.samples) ∧
      (∀ p ∈ x.samples, p.time < e → p ∈ is) ∧
      ∀ τ, pl b ≤ τ → τ ≤ mi e → valR is τ = some (x.v τ) := by
    intro x hx ix hbx
    obtain ⟨p, l, hxs, hp⟩ := hx.exists_cons
    have hpm : p ∈ x.samples.reverse := by simp [hxs]
    have hpb : p.time ≤ b := by rw [hp]; exact hbx
    obtain ⟨is, h1, h2, h3, h4, h4', h5, h6⟩ := skip_spec (rsorted_reverse.2 hx.sorted)
      ⟨p, hpm, hpb.trans_lt hlt⟩
    refine ⟨is, h1, ?_, h4, ⟨p, h5 p hpm (hpb.trans_lt hlt), hpb⟩,
      fun q hq => by simpa using h4' q hq, fun q hq hqe => h5 q (by simpa using hq) hqe, ?_⟩
    · obtain ⟨pre, hpre⟩ := skip_suffix h1
      have := rinc_reverse.2 ix
      rw [hpre] at this
      exact (List.pairwise_append.1 this).2.1
    intro τ a c
    rw [h6 τ c, ← val_eq_valR]
    exact hx.val (le_trans (by simpa using hbx) a)
  obtain ⟨is, a1, a3, a4, a5, a5', -, a6⟩ := side hx ix hbx
  obtain ⟨js, b1, b3, b4, b5, b5', b5'', b6⟩ := side hy iy hby
  obtain ⟨p, r, c1, c2, c3, c4, c5⟩ := untilLoop_spec (B := B) (X := x.v) (Y := y.v) (e := e) (s := b)
    (fun τ c d => hBx τ (le_trans (by simpa using hbx) c) (d.trans (by simpa using hex)))
    (fun τ c d => hBy τ (le_trans (by simpa using hby) c) (d.trans (by simpa using hey)))
    is js [] e (-B) hlt le_rfl a6 b6 a3 b3 a4 b4 a5 b5
    (fun j hj _ => by
      rw [Signal.v_of_val (iy.val_self j (b5' j hj))]
      exact le_max_right _ _)
    (by
      intro i hi hd pre j rest h1 h2 h3
      by_contra hcon
      push Not at hcon
      obtain ⟨k, k1, k2, k3⟩ := hL i (a5' i hi) hd (a4 i hi) j (b5' j (by rw [h1]; simp)) hcon.2
        (lt_of_le_of_ne h3 hcon.1)
      have hm : max b i.time < e := max_lt hlt (a4 i hi)
      have k4 := b5'' k k1 (k3.trans_lt hm)
      rw [h1] at k4
      rcases List.mem_append.1 k4 with h | h
      · exact absurd k3 (not_le.2 (h2 k h))
      · rcases List.mem_cons.1 h with rfl | h
        · exact lt_irrefl _ k2
        · rw [h1] at b3
          have := (List.pairwise_cons.1 (List.pairwise_append.1 b3).2.1).1 k h
          exact lt_asymm this k2)
    (Tail.nil e) (Or.inl ⟨rfl, rfl⟩) (fun τ c d => by have := c.trans d; simp at this)
  have hlte : ∀ q ∈ p :: r, q.time < e := by
    intro q hq
    rcases List.mem_cons.1 hq with rfl | hq
    · rw [c2]; exact hlt
    · exact (c3 q hq).2
  have hwf : WF ⟨p :: r, b, e⟩ := by
    refine ⟨⟨by simp, by simpa using c2, c4, fun q hq => (hlte q hq).le⟩, ?_⟩
    intro q hq
    exact (c3 q (by simpa using hq)).1
  obtain ⟨z, d1, d2, d3, d4, d5, d6, m, d7, d8⟩ := simplify_spec' hwf
  refine ⟨is, js, z, a1, b1, p :: r, c1, d1, d2, d3, d4, ?_, ?_⟩
  · intro τ h1 h2
    obtain ⟨v, hv, hU⟩ := c5 τ h1 h2
    rw [Signal.v_of_val (a := v) (by rw [d5 τ (h2.trans (by simp))]; exact hv)]
    exact hU
  · unfold Signal.v
    rw [d5 (pl e) le_rfl, d5 (mi e) (by simp)]
    congr 1
    simp only [val]
    have : cur (p :: r) (pl e) = cur (p :: r) (mi e) := by
      rw [cur_eq_find, cur_eq_find]
      apply find?_congr'
      intro q hq
      have hqe : q.time < e := hlte q (List.mem_reverse.1 hq)
      simp [hqe, hqe.le]
    rw [this]
    rfl

theorem computeUntil_spec {B : ℚ} {x y : Signal} (hx : WF0 x) (hy : WF0 y) (ix : SInc x.samples)
    (iy : SInc y.samples) (hlt : max x.beginTime y.beginTime < min x.endTime y.endTime)
    (hBx : ∀ σ, pl x.beginTime ≤ σ → σ ≤ pl x.endTime → -B ≤ x.v σ)
    (hBy : ∀ σ, pl y.beginTime ≤ σ → σ ≤ pl y.endTime → -B ≤ y.v σ)
    (hL : Spec.RisesClear x y) :
    ∃ z, computeUntil B x y = .ok z ∧ computeUntilM B Signal.empty x y = .ok z ∧
      z.beginTime = max x.beginTime y.beginTime ∧ z.endTime = min x.endTime y.endTime ∧ WF z ∧
      (∀ τ, pl (max x.beginTime y.beginTime) ≤ τ → τ ≤ mi (min x.endTime y.endTime) →
        Unt x.v y.v τ (mi (min x.endTime y.endTime)) (z.v τ)) ∧
      z.v (pl (min x.endTime y.endTime)) = z.v (mi (min x.endTime y.endTime)) := by
  obtain ⟨is, js, z, h1, h2, l, h3, h4, h5⟩ := until_core hx hy ix iy hlt hBx hBy hL
  refine ⟨z, ?_, ?_, h5⟩
  · simp only [computeUntil, fmax_eq, fmin_eq, h1, h2, h3, bind, Except.bind, h4]
  · simp only [computeUntilM, fmax_eq, fmin_eq, hx.ne, hy.ne, h1, h2, h3, bind, Except.bind, h4,
      Signal.empty, or_self, if_false]

/-! ## From one-sided points to times, and windows -/

/-- `Unt` with a window `[lo, hi]` for the certifying point. -/
def Wnt (X Y : Pt → ℚ) (τ lo hi : Pt) (v : ℚ) : Prop :=
  (∃ σ, lo ≤ σ ∧ σ ≤ hi ∧ v ≤ Y σ ∧ ∀ ρ, τ ≤ ρ → ρ ≤ σ → v ≤ X ρ) ∧
  ∀ σ w, lo ≤ σ → σ ≤ hi → w ≤ Y σ → (∀ ρ, τ ≤ ρ → ρ ≤ σ → w ≤ X ρ) → w ≤ v

theorem wnt_of {X Y : Pt → ℚ} {τ lo hi e : Pt} {I T U : ℚ} (hτ : τ ≤ lo)
    (hI : Bot X τ lo I) (hT : Top Y lo hi T) (hU : Unt X Y lo e U) :
    Wnt X Y τ lo (min hi e) (min I (min T U)) := by
  constructor
  · obtain ⟨σ, h1, h2, h3, h4⟩ := hU.1
    have hX : ∀ ρ, τ ≤ ρ → ρ ≤ σ → min I (min T U) ≤ X ρ := by
      intro ρ a b
      rcases le_or_gt ρ lo with h | h
      · exact (min_le_left _ _).trans (hI.2 ρ a h)
      · exact ((min_le_right _ _).trans (min_le_right _ _)).trans (h4 ρ h.le b)
    rcases le_or_gt σ hi with h | h
    · exact ⟨σ, h1, le_min h h2, ((min_le_right _ _).trans (min_le_right _ _)).trans h3, hX⟩
    · obtain ⟨σ', g1, g2, g3⟩ := hT.1
      refine ⟨σ', g1, le_min g2 ((g2.trans h.le).trans h2), ?_, ?_⟩
      · rw [g3]; exact (min_le_right _ _).trans (min_le_left _ _)
      · exact fun ρ a b => hX ρ a (b.trans (g2.trans h.le))
  · intro σ w h1 h2 h3 h4
    refine le_min ?_ (le_min ?_ ?_)
    · obtain ⟨ρ, g1, g2, g3⟩ := hI.1
      rw [← g3]
      exact h4 ρ g1 (g2.trans h1)
    · exact h3.trans (hT.2 σ h1 (h2.trans (min_le_left _ _)))
    · exact hU.2 σ w h1 (h2.trans (min_le_right _ _)) h3 fun ρ a b => h4 ρ (hτ.trans a) b

theorem left_ge {x : Signal} (hx : WF0 x) {s r u : ℚ} (hb : x.beginTime ≤ s) (hsr : s < r)
    (h : ∀ q, s ≤ q → q < r → u ≤ x.v (pl q)) : u ≤ x.v (mi r) := by
  have := left_le (x := computeNot x) hx.not (u := -u) hb hsr (fun q a b => by
    rw [v_not]; exact neg_le_neg (h q a b))
  rw [v_not] at this
  linarith

theorem Wnt.isLUB {x y : Signal} (hx : WF0 x) (hy : WF0 y) {t lo hi v : ℚ} {H : Pt}
    (hbx : x.beginTime ≤ t) (hby : y.beginTime ≤ lo)
    (hH : H = pl hi ∨ (H = mi hi ∧ lo < hi ∧ y.v (pl hi) ≤ y.v (mi hi)))
    (h : Wnt x.v y.v (pl t) (pl lo) H v) : IsLUB (Spec.certified x y t lo hi) v := by
  have hHle : H ≤ pl hi := by
    rcases hH with hH | ⟨hH, _⟩
    · exact hH.le
    · rw [hH]; simp
  have hall : ∀ (w r : ℚ), (∀ q, t ≤ q → q ≤ r → ∀ c, Spec.value x q = some c → w ≤ c) →
      ∀ ρ, pl t ≤ ρ → ρ ≤ pl r → w ≤ x.v ρ := by
    intro w r hw ρ a b
    have hq : ∀ q, t ≤ q → q ≤ r → w ≤ x.v (pl q) := fun q c d =>
      hw q c d _ (hx.value (hbx.trans c))
    rcases Pt.cases ρ with e | e
    · rw [e] at a b ⊢
      exact hq _ (by simpa using a) (by simpa using b)
    · rw [e] at a b ⊢
      rw [pl_le_mi] at a
      rw [le_pl_iff, mi_time] at b
      exact left_ge hx hbx a fun q c d => hq q c (d.le.trans b)
  constructor
  · rintro w ⟨r, h1, h2, ⟨u, h3, h4⟩, h5⟩
    rw [hy.value (hby.trans h1)] at h3
    obtain rfl := Option.some.inj h3
    rcases le_or_gt (pl r) H with h6 | h6
    · exact h.2 (pl r) w (by simpa using h1) h6 h4 (hall w r h5)
    · rcases hH with hH | ⟨hH, h7, h8⟩
      · rw [hH] at h6
        simp only [pl_lt_pl] at h6
        exact absurd h2 (not_le.2 h6)
      · rw [hH] at h6
        have hr : r = hi := le_antisymm h2 (by simpa using h6)
        subst hr
        refine h.2 (mi r) w (by simpa using h7) hH.ge (h4.trans h8) ?_
        exact fun ρ a b => hall w r h5 ρ a (b.trans (by simp))
  · intro u hu
    obtain ⟨σ, h1, h2, h3, h4⟩ := h.1
    have key : ∀ q, lo ≤ q → q ≤ hi → pl q ≤ σ → min v (y.v (pl q)) ≤ u := by
      intro q a b c
      refine hu ⟨q, a, b, ⟨_, hy.value (hby.trans a), min_le_right _ _⟩, ?_⟩
      intro q' a' b' d hd
      rw [hx.value (hbx.trans a')] at hd
      obtain rfl := Option.some.inj hd
      exact (min_le_left _ _).trans (h4 (pl q') (by simpa using a')
        (le_trans (by simpa using b') c))
    by_contra hcon
    push Not at hcon
    have hle : σ.time ≤ hi := by
      have := h2.trans hHle
      rwa [le_pl_iff] at this
    rcases Pt.cases σ with e | e
    · rw [e] at h1 h3
      have := key σ.time (by simpa using h1) hle e.ge
      rw [min_eq_left h3] at this
      exact absurd this (not_le.2 hcon)
    · rw [e] at h1 h3
      rw [pl_le_mi] at h1
      have : y.v (mi σ.time) ≤ u := left_le hy hby h1 fun q c d => by
        have := key q c (d.le.trans hle) (by rw [e]; simpa using d)
        rcases min_le_iff.1 this with h | h
        · exact absurd h (not_le.2 hcon)
        · exact h
      exact absurd (h3.trans this) (not_le.2 hcon)

/-! ## Timed `until` -/

theorem bot_point (X : Pt → ℚ) (τ : Pt) : Bot X τ τ (X τ) :=
  ⟨⟨τ, le_rfl, le_rfl, rfl⟩, fun _ h1 h2 => by rw [le_antisymm h2 h1]⟩

/-- The last steps of `computeTimedUntil` and of the other branch: `w` denotes what holds from
`t + a` on, and the left operand is joined over `[t, t + a]`. -/
theorem timed_tail {B : ℚ} {x w : Signal} {a b0 e : ℚ} (hx : WF0 x) (gx : SInc x.samples ∨ CG x)
    (ha : 0 < a) (hab : x.beginTime + a < e) (he : e ≤ x.endTime)
    (hk : KeepsSlope x (x.beginTime + a))
    (hB : ∀ σ, pl x.beginTime ≤ σ → σ ≤ pl x.endTime → x.v σ ≤ B)
    (hw : WF0 w) (hwb : w.beginTime = b0) (hwe : w.endTime = e) (hb0 : b0 < e) :
    ∃ z1 z, computeBoundedGlobally B x a = .ok z1 ∧ computeAnd z1 (shift w (-a)) = .ok z ∧
      z.beginTime = max x.beginTime (b0 - a) ∧ z.endTime = e - a ∧ WF z ∧
      ∀ t, z.beginTime ≤ t → t < z.endTime →
        ∃ I, Bot x.v (pl t) (pl (t + a)) I ∧ z.v (pl t) = min I (w.v (pl (t + a))) := by
  obtain ⟨z1, h1, h2, h3, h4, h5, _, _⟩ := computeBoundedGlobally_spec (B := B) hx gx ha
    (hab.trans_le he) hk hB
  have hlt : max z1.beginTime (shift w (-a)).beginTime < min z1.endTime (shift w (-a)).endTime := by
    simp only [shift, h2, h3, hwb, hwe]
    refine max_lt (lt_min ?_ ?_) (lt_min ?_ ?_) <;> linarith
  obtain ⟨z, g1, g2⟩ := computeAnd_spec h4.toWF0 (hw.shift (-a)) hlt
  have hzb : z.beginTime = max x.beginTime (b0 - a) := by
    rw [g2.begin_eq]; simp only [shift, h2, hwb, sub_eq_add_neg]
  have hze : z.endTime = e - a := by
    rw [g2.end_eq]; simp only [shift, h3, hwe, ← sub_eq_add_neg]
    exact min_eq_right (by linarith)
  refine ⟨z1, z, h1, g1, hzb, hze, g2.wf, fun t c d => ?_⟩
  have hv := g2.val (pl t) (by rw [← g2.begin_eq]; simpa using c) (by rw [← g2.end_eq]; simpa using d)
  rw [v_shift, pl_shift, neg_neg] at hv
  rw [hzb] at c
  rw [hze] at d
  have hc := le_trans (le_max_left _ _) c
  have := h5 (pl t) (by simpa using hc) (by rw [pl_le_mi]; linarith)
  rw [pl_shift, min_eq_left (by rw [pl_le_pl]; linarith)] at this
  exact ⟨_, this, hv⟩

/-- `compute_timed_until`, on operands with the shape described in C16. -/
theorem computeTimedUntil_spec {B : ℚ} {old x y : Signal} {a b : ℚ} (hx : WF0 x) (hy : WF0 y)
    (ix : SInc x.samples) (iy : SInc y.samples)
    (hlt : max x.beginTime y.beginTime < min x.endTime y.endTime)
    (hBx : ∀ σ, pl x.beginTime ≤ σ → σ ≤ pl x.endTime → -B ≤ x.v σ ∧ x.v σ ≤ B)
    (hBy : ∀ σ, pl y.beginTime ≤ σ → σ ≤ pl y.endTime → -B ≤ y.v σ)
    (hL : Spec.RisesClear x y) (ha : 0 ≤ a) (hab : a < b)
    (hb0 : 0 ≤ x.beginTime) (hxa : x.beginTime + a < min x.endTime y.endTime)
    (hyb : b ≤ min x.endTime y.endTime → y.beginTime + (b - a) < y.endTime)
    (kx : 0 < a → KeepsSlope x (x.beginTime + a))
    (ky : b ≤ min x.endTime y.endTime → KeepsSlope y (y.beginTime + (b - a))) :
    ∃ z, computeTimedUntil B old x y a b = .ok z ∧
      z.beginTime = max x.beginTime (max x.beginTime y.beginTime - a) ∧
      z.endTime = min x.endTime y.endTime - a ∧ WF z ∧
      ∀ t, z.beginTime ≤ t → t < z.endTime →
        Wnt x.v y.v (pl t) (pl (t + a)) (min (pl (t + b)) (mi (min x.endTime y.endTime)))
          (z.v (pl t)) := by
  set b0 := max x.beginTime y.beginTime with hb
  set e := min x.endTime y.endTime with he
  have hbx : x.beginTime ≤ b0 := le_max_left _ _
  have hby : y.beginTime ≤ b0 := le_max_right _ _
  have hex : e ≤ x.endTime := min_le_left _ _
  have hey : e ≤ y.endTime := min_le_right _ _
  obtain ⟨u, u1, -, u3, u4, u5, u6, -⟩ := computeUntil_spec hx hy ix iy hlt
    (fun σ c d => (hBx σ c d).1) hBy hL
  rw [← hb] at u3 u6
  rw [← he] at u4 u6
  have hfull : ∀ {t v : ℚ} {I : ℚ}, b0 ≤ t + a → t + a < e → mi e ≤ pl (t + b) →
      Bot x.v (pl t) (pl (t + a)) I → v = min I (u.v (pl (t + a))) →
      Wnt x.v y.v (pl t) (pl (t + a)) (min (pl (t + b)) (mi e)) v := by
    intro t v I c d hle hI hv
    have hU := u6 (pl (t + a)) (by simpa using c) (by simpa using d)
    obtain ⟨⟨σ, h1, h2, h3, h4⟩, h5⟩ := hU
    rw [min_eq_right hle, hv]
    refine ⟨⟨σ, h1, h2, (min_le_right _ _).trans h3, fun ρ p q => ?_⟩, fun σ w p q r s => ?_⟩
    · rcases le_or_gt ρ (pl (t + a)) with h | h
      · exact (min_le_left _ _).trans (hI.2 ρ p h)
      · exact (min_le_right _ _).trans (h4 ρ h.le q)
    · refine le_min ?_ (h5 σ w p q r fun ρ p' q' => s ρ (le_trans (by simpa using ha) p') q')
      obtain ⟨ρ, g1, g2, g3⟩ := hI.1
      rw [← g3]
      exact s ρ g1 (g2.trans p)
  unfold computeTimedUntil
  rw [if_neg (by simp [hx.ne, hy.ne])]
  by_cases hbe : e < b
  · rw [if_pos hbe]
    by_cases ha0 : a = 0
    · rw [if_pos ha0]
      subst ha0
      refine ⟨u, u1, by rw [u3, sub_zero, max_eq_right hbx], by rw [u4, sub_zero], u5, ?_⟩
      intro t c d
      rw [u3] at c
      rw [u4] at d
      have hte : mi e ≤ pl (t + b) := by rw [mi_le_pl]; linarith
      refine hfull (by simpa using c) (by simpa using d) hte (I := x.v (pl t)) ?_ ?_
      · rw [add_zero]; exact bot_point _ _
      · rw [add_zero]
        have := (u6 (pl t) (by simpa using c) (by simpa using d)).1
        obtain ⟨σ, h1, _, _, h4⟩ := this
        exact (min_eq_right (h4 _ le_rfl h1)).symm
    · have ha' : 0 < a := lt_of_le_of_ne ha (Ne.symm ha0)
      rw [if_neg ha0, if_neg (by rw [not_lt]; linarith)]
      obtain ⟨z1, z, g1, g2, g3, g4, g5, g6⟩ := timed_tail (B := B) hx (Or.inl ix) ha' hxa hex
        (kx ha') (fun σ c d => (hBx σ c d).2) u5.toWF0 u3 u4 hlt
      refine ⟨z, by simp only [g1, u1, bind, Except.bind, g2], g3, g4, g5, ?_⟩
      intro t c d
      obtain ⟨I, hI, hv⟩ := g6 t c d
      rw [g3] at c
      rw [g4] at d
      have c1 := le_trans (le_max_left _ _) c
      have c2 := le_trans (le_max_right _ _) c
      exact hfull (by linarith) (by linarith) (by rw [mi_le_pl]; linarith) hI hv
  · rw [if_neg hbe]
    have hbe' := not_lt.1 hbe
    obtain ⟨z2, v1, v2, v3, v4, v5, -, -⟩ := computeBoundedEventually_spec (B := B) hy (Or.inl iy)
      (a := b - a) (by linarith) (hyb hbe') (ky hbe') hBy
    have hlt4 : max z2.beginTime u.beginTime < min z2.endTime u.endTime := by
      rw [v2, v3, u3, u4, max_eq_right hby, min_eq_right hey]
      exact hlt
    obtain ⟨w, w1, w2⟩ := computeAnd_spec v4.toWF0 u5.toWF0 hlt4
    rw [v2, v3, u3, u4, max_eq_right hby, min_eq_right hey] at w2
    have hW : ∀ {t v I : ℚ}, b0 ≤ t + a → t + a < e → Bot x.v (pl t) (pl (t + a)) I →
        v = min I (w.v (pl (t + a))) →
        Wnt x.v y.v (pl t) (pl (t + a)) (min (pl (t + b)) (mi e)) v := by
      intro t v I c d hI hv
      have hU := u6 (pl (t + a)) (by simpa using c) (by simpa using d)
      have hT := v5 (pl (t + a)) (by simpa using hby.trans c) (by
        rw [pl_le_mi]; exact d.trans_le hey)
      rw [w2.val (pl (t + a)) (by simpa using c) (by simpa using d)] at hv
      have := wnt_of (by simpa using ha) hI hT hU
      rw [← hv, pl_shift, show t + a + (b - a) = t + b by ring, min_assoc, min_eq_right
        (a := pl y.endTime) (b := mi e) (by simpa using hey)] at this
      exact this
    unfold computeTimedUntilF
    by_cases ha0 : 0 < a
    · obtain ⟨z1, z, g1, g2, g3, g4, g5, g6⟩ := timed_tail (B := B) hx (Or.inl ix) ha0 hxa hex
        (kx ha0) (fun σ c d => (hBx σ c d).2) w2.wf.toWF0 w2.begin_eq w2.end_eq hlt
      refine ⟨z, by simp only [v1, u1, w1, if_pos ha0, g1, bind, Except.bind, g2], g3, g4, g5, ?_⟩
      intro t c d
      obtain ⟨I, hI, hv⟩ := g6 t c d
      rw [g3] at c
      rw [g4] at d
      have c2 := le_trans (le_max_right _ _) c
      exact hW (by linarith) (by linarith) hI hv
    · have ha' : a = 0 := le_antisymm (not_lt.1 ha0) ha
      have hltx : max x.beginTime w.beginTime < min x.endTime w.endTime := by
        rw [w2.begin_eq, w2.end_eq, max_eq_right hbx, min_eq_right hex]
        exact hlt
      obtain ⟨z, z1, z2'⟩ := computeAnd_spec hx w2.wf.toWF0 hltx
      rw [w2.begin_eq, w2.end_eq, max_eq_right hbx, min_eq_right hex] at z2'
      refine ⟨z, by simp only [v1, u1, w1, if_neg ha0, z1, bind, Except.bind], ?_, ?_, z2'.wf, ?_⟩
      · rw [z2'.begin_eq, ha', sub_zero, max_eq_right hbx]
      · rw [z2'.end_eq, ha', sub_zero]
      intro t c d
      rw [z2'.begin_eq] at c
      rw [z2'.end_eq] at d
      have hv := z2'.val (pl t) (by simpa using c) (by simpa using d)
      refine hW (I := x.v (pl t)) (by linarith) (by linarith) ?_ ?_
      · rw [ha', add_zero]; exact bot_point _ _
      · rw [hv, ha', add_zero]

end STLRom
