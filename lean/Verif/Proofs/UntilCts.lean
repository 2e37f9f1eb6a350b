import Verif.Proofs.UntilRun

/-!
# `until` over continuous signals

The result is continuous and all its samples lie on its graph, so that temporal operators can be
applied to it.
-/

namespace STLRom
open Signal Spec

/-- The scan over the last stretch `[s, t)` of a range. -/
theorem evSeg_cts {B : ℚ} {Y : Pt → ℚ} {s t : ℚ} {pre rest : List Sample} {j : Sample}
    (hst : s < t) (hr : RSorted (pre ++ j :: rest)) (hlt : ∀ p ∈ pre, p.time < t)
    (hpre : ∀ p ∈ pre, s < p.time)
    (hj : j.time ≤ s) (hd : j.time = s ∨ 0 ≤ j.derivative)
    (hY : ∀ τ, pl s ≤ τ → τ ≤ mi t → valR (pre ++ j :: rest) τ = some (Y τ))
    (hg : ∀ p ∈ pre, Y (mi p.time) = p.value ∧ Y (pl p.time) = p.value)
    (hB : -B ≤ Y (mi t)) :
    ∃ p r, partialEventually s [] (pre ++ j :: rest) t false (-B) = .ok (p :: r, j :: rest) ∧
      p.time = s ∧ (∀ q ∈ r, s < q.time ∧ q.time < t) ∧ Sorted (p :: r) ∧
      (∀ τ, pl s ≤ τ → τ ≤ mi t → ∃ v, val (p :: r) τ = some v ∧ Top Y τ (mi t) v) ∧
      ∀ q ∈ p :: r, Top Y (pl q.time) (mi t) q.value := by
  set j0 : Sample := ⟨s, j.valueAt s, j.derivative⟩ with hj0
  have hr0 : RSorted (pre ++ [j0]) := by
    refine List.pairwise_append.2 ⟨rsorted_append_left hr, by simp, ?_⟩
    intro a ha b hb
    simp only [List.mem_singleton] at hb
    rw [hb]
    exact (hpre a ha).le
  have hJ' : EvJ True Y (mi t) (mi t) (pend t false (-B) []) (-B) := by
    refine ⟨fun σ h1 h2 => absurd h1 (not_lt.2 h2), ⟨mi t, le_rfl, le_rfl, hB⟩, ?_, ?_, ?_, ?_, ?_⟩
    · intro p hp; simp [pend] at hp
    · simp [pend, Sorted]
    · intro p hp; simp [pend] at hp
    · intro σ h1 h2; exact absurd h1 (not_lt.2 h2)
    · intro _ p hp; simp [pend] at hp
  obtain ⟨z', is', h1, ⟨zm, h2⟩, p, r, h3, h4, h5⟩ := partialEventually_spec (s := s) (pre ++ [j0]) [] t
    false (-B) (mi t) hJ' rfl le_rfl (by simpa using hst) hr0
    (by
      intro p hp
      rcases List.mem_append.1 hp with hp | hp
      · simpa using (hlt p hp).le
      · simp only [List.mem_singleton] at hp
        rw [hp]; simpa [hj0] using hst.le)
    ⟨j0, by simp, rfl⟩
    (by
      intro p hp
      rcases List.mem_append.1 hp with hp | hp
      · exact (hpre p hp).le
      · simp only [List.mem_singleton] at hp
        rw [hp])
    (by
      intro τ a b
      rw [← hY τ a b]
      clear hr hr0 hJ' hY hg hlt
      induction pre with
      | nil =>
        have e1 : pl j0.time ≤ τ := a
        have e2 : pl j.time ≤ τ := le_trans (by simpa using hj) a
        rw [List.nil_append, List.nil_append, valR_cons_of_le e1, valR_cons_of_le e2, hj0,
          valueAt_move]
      | cons q pre ih =>
        simp only [List.cons_append]
        rcases le_or_gt (pl q.time) τ with h | h
        · rw [valR_cons_of_le h, valR_cons_of_le h]
        · rw [valR_cons_of_lt h, valR_cons_of_lt h]
          exact ih (fun p hp => hpre p (by simp [hp])))
    (by
      intro p hp hsp
      rcases List.mem_append.1 hp with hp | hp
      · exact ⟨by rw [(hg p hp).1]; exact le_max_left _ _, by simpa using hlt p hp⟩
      · simp only [List.mem_singleton] at hp
        rw [hp] at hsp
        exact absurd hsp (lt_irrefl _))
    (by
      intro _ p hp hsp
      rcases List.mem_append.1 hp with hp | hp
      · exact hg p hp
      · simp only [List.mem_singleton] at hp
        rw [hp] at hsp
        exact absurd hsp (lt_irrefl _))
  have hlt' := partialEventually_lt (t0 := t) (pre ++ [j0]) [] t false (-B) _ hst
    (by
      intro p hp
      rcases List.mem_append.1 hp with hp | hp
      · exact hlt p hp
      · simp only [List.mem_singleton] at hp
        rw [hp]; exact hst) hr0
    (by
      intro p hp
      rcases List.mem_append.1 hp with hp | hp
      · exact (hlt p hp).le
      · simp only [List.mem_singleton] at hp
        rw [hp]; exact hst.le) hst.le le_rfl (by simp)
    (by
      intro p hp
      rcases List.mem_append.1 hp with hp | hp
      · exact (hpre p hp).le
      · simp only [List.mem_singleton] at hp
        rw [hp]) (by simp) h1
  subst h3
  refine ⟨p, r, ?_, h4, fun q hq => ⟨h5 q hq, hlt' q (by simp [hq])⟩, h2.sorted, ?_, h2.vc True.intro⟩
  · rw [partialEventually_cut hj hd rest pre [] t false (-B) hpre, h1]
    rfl
  · intro τ a b
    exact h2.val τ (by rw [mi_lt_iff]; exact a) b

theorem segmentOr_cts {R : ℚ → ℚ → Prop} {X Y : Pt → ℚ} {e : ℚ} {i : Sample} {js z : List Sample} {t : ℚ}
    (hit : i.time < t) (hte : t ≤ e)
    (hX : ∀ τ, pl i.time ≤ τ → τ ≤ mi t → i.valueAt τ.time = X τ)
    (hY : ∀ τ, pl i.time ≤ τ → τ ≤ mi t → valR js τ = some (Y τ))
    (hsrt : RSorted js) (hjt : ∀ j ∈ js, j.time < t)
    (hex : ∃ j ∈ js, j.time ≤ i.time) (hz : Tail z t e)
    (hR : ∀ q ∈ z, R q.time q.value)
    (hR1 : ∀ T, i.time < T → T < t → R T (max (X (pl T)) (Y (pl T))))
    (hR2 : ∀ j ∈ js, i.time < j.time → R j.time (max (i.valueAt j.time) j.value)) :
    ∃ z' js', segmentOr z i t js = .ok (z', js') ∧
      Ext z z' i.time t e (fun τ => max (X τ) (Y τ)) ∧
      ∀ q ∈ z', i.time < q.time → R q.time q.value := by
  obtain ⟨p, z', j, js', h1, h2, -, -, -, h3, h4⟩ := segmentAnd_spec (P := fun T v => R T (-v))
    (X := fun τ => if τ ≤ mi t then -X τ else -(val z τ).getD 0)
    (Y := fun τ => if τ ≤ mi t then -Y τ else -(val z τ).getD 0)
    (e := e) (i := i.neg) (js := negs js) (z := negs z) (t := t) hit.le hte
    (fun τ a b => by simp only [if_pos b]; rw [Sample.neg_valueAt, hX τ a b])
    (fun τ a b => by rw [valR_negs, hY τ a b]; simp [b])
    (List.pairwise_map.2 (by simpa [RSorted] using hsrt))
    (fun j hj => by
      obtain ⟨j', hj', rfl⟩ := List.mem_map.1 hj
      exact ⟨(hjt j' hj').le, (hjt j' hj').trans_le hte⟩)
    (by
      obtain ⟨j, hj, hj'⟩ := hex
      exact ⟨j.neg, List.mem_map_of_mem hj, hj'⟩)
    (done_neg hz X Y)
    (fun q hq => by
      obtain ⟨q', hq', rfl⟩ := List.mem_map.1 hq
      exact ⟨hit.trans_le (hz.from' q' hq'), hz.lt q' hq', by simpa using hR q' hq'⟩)
    (fun T a b => by
      have b' : pl T ≤ mi t := by simpa using b
      simp only [if_pos b', min_neg_neg, neg_neg]
      exact hR1 T a b)
    (fun j hj a => by
      obtain ⟨j', hj', rfl⟩ := List.mem_map.1 hj
      rw [Sample.neg_valueAt, Sample.neg_value, Sample.neg_time, min_neg_neg, neg_neg]
      exact hR2 j' hj' a)
  rw [segmentAnd_neg] at h1
  cases hc : segmentOr z i t js with
  | error f => rw [hc] at h1; cases h1
  | ok r =>
    rw [hc] at h1
    obtain ⟨r1, r2⟩ := r
    simp only [Except.map, Except.ok.injEq, Prod.mk.injEq] at h1
    refine ⟨r1, r2, rfl, ?_⟩
    have h5 : r1 = negs (p :: z') := by
      rw [← h1.1]
      simp [Sample.neg_neg_comp]
    rw [h5]
    refine ⟨ext_of_done hz h2 h3 (fun q hq => ⟨(h4 q hq).1, (h4 q hq).2.1, True.intro⟩) hit.le hte, ?_⟩
    intro q hq hs
    rcases List.mem_cons.1 hq with rfl | hq
    · exact absurd hs (by rw [Sample.neg_time, h2]; exact lt_irrefl _)
    · obtain ⟨q', hq', rfl⟩ := List.mem_map.1 hq
      have := (h4 q' hq').2.2
      simpa using this

theorem gh_of_all {P : ℚ → ℚ → Prop} {Y : Pt → ℚ} {s : ℚ} {K : List Sample} :
    ∀ (is : List Sample) (t : ℚ), (∀ i ∈ is, s < i.time →
      (∀ j ∈ K, j.time = i.time → P i.time (min i.value j.value)) ∧ P i.time (min i.value (Y (mi i.time)))) →
      Gh P Y s K t is
  | [], _, _ => True.intro
  | i :: is, t, h => by
    refine ⟨fun h1 h2 => ?_, gh_of_all is _ fun k hk => h k (by simp [hk])⟩
    subst h1
    exact h i (by simp) h2

theorem partialOr_cts {R : ℚ → ℚ → Prop} {X Y : Pt → ℚ} {e s : ℚ} {is js z : List Sample} {t : ℚ}
    (hst : s < t) (hte : t ≤ e)
    (hX : ∀ τ, pl s ≤ τ → τ ≤ mi t → valR is τ = some (X τ))
    (hY : ∀ τ, pl s ≤ τ → τ ≤ mi t → valR js τ = some (Y τ))
    (his : RSorted is) (hjs : RSorted js) (hit : ∀ i ∈ is, i.time < t) (hjt : ∀ j ∈ js, j.time < t)
    (hei : ∃ j ∈ is, j.time ≤ s) (hej : ∃ j ∈ js, j.time ≤ s) (hz : Tail z t e)
    (hR : ∀ q ∈ z, R q.time q.value)
    (hR0 : ∀ T, t ≤ T → T < e → R T ((val z (pl T)).getD 0))
    (hR1 : ∀ T, s < T → T < t → R T (max (X (pl T)) (Y (pl T))))
    (hi : ∀ i ∈ is, s < i.time → i.value = X (pl i.time))
    (hj : ∀ j ∈ js, s < j.time → j.value = Y (pl j.time))
    (hXc : ∀ T, s < T → T < t → X (mi T) = X (pl T))
    (hYc : ∀ T, s < T → T < t → Y (mi T) = Y (pl T)) :
    ∃ z', partialOr s z is js t = .ok z' ∧ Ext z z' s t e (fun τ => max (X τ) (Y τ)) ∧
      ∀ q ∈ z', s < q.time → R q.time q.value := by
  have mem : ∀ {l : List Sample}, (∀ j ∈ l, j.time < t) → ∀ j ∈ negs l, j.time ≤ t ∧ j.time < e := by
    intro l h j hj
    obtain ⟨j', hj', rfl⟩ := List.mem_map.1 hj
    exact ⟨(h j' hj').le, (h j' hj').trans_le hte⟩
  have mex : ∀ {l : List Sample}, (∃ j ∈ l, j.time ≤ s) → ∃ j ∈ negs l, j.time ≤ s := by
    rintro l ⟨j, hj, hj'⟩
    exact ⟨j.neg, List.mem_map_of_mem hj, hj'⟩
  obtain ⟨p, z', h1, h2, h3, h4⟩ := partialAnd_spec (P := fun T v => R T (-v))
    (X := fun τ => if τ ≤ mi t then -X τ else -(val z τ).getD 0)
    (Y := fun τ => if τ ≤ mi t then -Y τ else -(val z τ).getD 0)
    (e := e) (s := s) (K := negs js)
    (fun T a b => by
      rcases lt_or_ge T t with h | h
      · have b' : pl T ≤ mi t := by simpa using h
        simp only [if_pos b', min_neg_neg, neg_neg]
        exact hR1 T a h
      · have b' : ¬ pl T ≤ mi t := by simpa using h
        simp only [if_neg b', min_self, neg_neg]
        exact hR0 T h b)
    (negs is) (negs js) (negs z) t hst hte
    (fun τ a b => by rw [valR_negs, hX τ a b]; simp [b])
    (fun τ a b => by rw [valR_negs, hY τ a b]; simp [b])
    (List.pairwise_map.2 (by simpa [RSorted] using his))
    (List.pairwise_map.2 (by simpa [RSorted] using hjs))
    (mem hit) (mem hjt) (mex hei) (mex hej)
    (done_neg hz X Y)
    (fun q hq => by
      obtain ⟨q', hq', rfl⟩ := List.mem_map.1 hq
      exact ⟨hst.trans_le (hz.from' q' hq'), hz.lt q' hq', by simpa using hR q' hq'⟩)
    (fun j hj' a => by
      obtain ⟨j', hj'', rfl⟩ := List.mem_map.1 hj'
      have a' : s < j'.time := a
      have b' : mi j'.time ≤ mi t := by simpa using (hjt j' hj'').le
      simp only [Sample.neg_time, Sample.neg_value, if_pos b', min_neg_neg, neg_neg]
      rw [hj j' hj'' a', hXc _ a' (hjt j' hj'')]
      exact hR1 _ a' (hjt j' hj''))
    (fun _ h => h)
    (gh_of_all _ _ fun i hi' a => by
      obtain ⟨i', hi'', rfl⟩ := List.mem_map.1 hi'
      have a' : s < i'.time := a
      have b' : mi i'.time ≤ mi t := by simpa using (hit i' hi'').le
      refine ⟨fun j hj' e => ?_, ?_⟩
      · obtain ⟨j', hj'', rfl⟩ := List.mem_map.1 hj'
        have e' : j'.time = i'.time := e
        simp only [Sample.neg_time, Sample.neg_value, min_neg_neg, neg_neg]
        rw [hi i' hi'' a', hj j' hj'' (by rw [e']; exact a'), e']
        exact hR1 _ a' (hit i' hi'')
      · simp only [Sample.neg_time, Sample.neg_value, if_pos b', min_neg_neg, neg_neg]
        rw [hi i' hi'' a', hYc _ a' (hit i' hi'')]
        exact hR1 _ a' (hit i' hi''))
  rw [partialAnd_neg] at h1
  cases hc : partialOr s z is js t with
  | error f => rw [hc] at h1; cases h1
  | ok r =>
    rw [hc] at h1
    simp only [Except.map, Except.ok.injEq] at h1
    refine ⟨r, rfl, ?_⟩
    have h5 : r = negs (p :: z') := by
      rw [← h1]
      simp [Sample.neg_neg_comp]
    rw [h5]
    refine ⟨ext_of_done hz h2 h3 (fun q hq => ⟨(h4 q hq).1, (h4 q hq).2.1, True.intro⟩) hst.le hte, ?_⟩
    intro q hq hs
    rcases List.mem_cons.1 hq with rfl | hq
    · exact absurd hs (by rw [Sample.neg_time, h2]; exact lt_irrefl _)
    · obtain ⟨q', hq', rfl⟩ := List.mem_map.1 hq
      have := (h4 q' hq').2.2
      simpa using this

theorem segmentUntil_cts {B : ℚ} {X Y : Pt → ℚ} {e : ℚ} {i : Sample} {js z : List Sample}
    {t zmax : ℚ} (hit : i.time < t) (hte : t ≤ e)
    (hX : ∀ τ, pl i.time ≤ τ → τ ≤ mi t → i.valueAt τ.time = X τ)
    (hY : ∀ τ, pl i.time ≤ τ → τ ≤ mi t → valR js τ = some (Y τ))
    (hsrt : RSorted js) (hjt : ∀ j ∈ js, j.time < t)
    (hex : ∃ j ∈ js, j.time ≤ i.time)
    (hYc : ∀ T, i.time < T → T < t → Y (mi T) = Y (pl T))
    (hvc : ∀ j ∈ js, i.time < j.time → j.value = Y (pl j.time))
    (hBX : ∀ τ, pl i.time ≤ τ → τ ≤ mi t → -B ≤ X τ) (hBY : -B ≤ Y (mi t))
    (hL : 0 < i.derivative → ∀ pre j rest, js = pre ++ j :: rest → (∀ p ∈ pre, i.time < p.time) →
      j.time ≤ i.time → j.time = i.time ∨ 0 ≤ j.derivative)
    (hz : Tail z t e) (hF : Fut B X Y t e zmax)
    (hR : ∀ q ∈ z, Unt X Y (pl q.time) (mi e) q.value)
    (hU : ∀ τ, pl t ≤ τ → τ ≤ mi e → ∃ v, val z τ = some v ∧ Unt X Y τ (mi e) v) :
    ∃ z' j js' F, segmentUntil B z i t js zmax = .ok (z', j :: js') ∧ j.time ≤ i.time ∧
      (∃ pre, js = pre ++ j :: js' ∧ ∀ p ∈ pre, i.time < p.time) ∧
      Ext z z' i.time t e F ∧ (∀ τ, pl i.time ≤ τ → τ ≤ mi t → Unt X Y τ (mi e) (F τ)) ∧
      ∀ q ∈ z', Unt X Y (pl q.time) (mi e) q.value := by
  have hXc : ∀ T, i.time < T → T < t → X (mi T) = X (pl T) := by
    intro T a b
    rw [← hX (mi T) (by simpa using a) (by simpa using b.le), ← hX (pl T) (by simpa using a.le) (by simpa using b)]
    rfl
  have fin : ∀ {z' : List Sample} {F : Pt → ℚ}, Ext z z' i.time t e F →
      (∀ τ, pl i.time ≤ τ → τ ≤ mi t → Unt X Y τ (mi e) (F τ)) →
      (∀ q ∈ z', i.time < q.time → Unt X Y (pl q.time) (mi e) q.value) →
      ∀ q ∈ z', Unt X Y (pl q.time) (mi e) q.value := by
    intro z' F h1 h2 h3 q hq
    obtain ⟨p, r, k1, k2, k3, k4⟩ := h1.front hit
    rw [k1] at hq
    rcases List.mem_cons.1 hq with rfl | hq
    · rw [k2, k3]
      exact h2 _ le_rfl (by simpa using hit)
    · exact h3 q (by rw [k1]; simp [hq]) (k4 q hq).1
  have hXt : i.valueAt t = X (mi t) := by
    have := hX (mi t) (by simpa using hit) le_rfl
    simpa using this
  by_cases hd : i.derivative ≤ 0
  · set f : Pt → ℚ := fun τ => min (X τ) (Y τ) with hf
    obtain ⟨p1, z1, j, js', a1, a2, -, a4, a5, a6, a7⟩ := segmentAnd_spec
      (P := fun T v => v = f (pl T)) (X := X) (Y := Y) (e := t) (i := i) (js := js)
      (z := []) hit.le le_rfl hX hY hsrt (fun j hj => ⟨(hjt j hj).le, hjt j hj⟩) hex
      (Done.nil t _) (fun _ h => by simp at h) (fun T _ _ => rfl)
      (fun j hj hij => by
        have h2 := hX (pl j.time) (by simpa using hij.le) (by simpa using hjt j hj)
        simp only [pl_time] at h2
        rw [h2, hvc j hj hij])
    have hfc : ∀ T, i.time < T → T < t → f (mi T) = f (pl T) := fun T a b => by
      simp only [hf]; rw [hXc T a b, hYc T a b]
    obtain ⟨p2, r2, b1, b2, b3, b4, b5, b6⟩ := evSeg_cts (B := B) (Y := f) (s := i.time) (t := t)
      (pre := z1.reverse) (rest := []) (j := p1) hit
      (by
        have := rsorted_reverse.2 a6.sorted
        rwa [List.reverse_cons] at this)
      (fun p hp => (a7 p (List.mem_reverse.1 hp)).2.1) (fun p hp => (a7 p (List.mem_reverse.1 hp)).1)
      a2.le (Or.inl a2)
      (fun τ c d => by
        rw [← List.reverse_cons, ← val_eq_valR]
        exact a6.den τ (by rw [mi_lt_iff]; exact c) d)
      (fun p hp => by
        obtain ⟨k1, k2, k3⟩ := a7 p (List.mem_reverse.1 hp)
        exact ⟨by rw [hfc _ k1 k2, k3], k3.symm⟩)
      (le_min (hBX _ (by simpa using hit) le_rfl) hBY)
    have hfall : ∀ τ, pl i.time ≤ τ → τ ≤ mi t → ∀ v, Top f τ (mi t) v →
        Unt X Y τ (mi e) (max (min zmax (X (mi t))) v) := fun τ c d v hT =>
      unt_falling (B := B) (v1 := v) (zmax := zmax) (E := e) d hF
        (fun ρ σ h1 h2 h3 => by
          rw [← hX ρ (c.trans h1) (h2.trans h3), ← hX σ (c.trans (h1.trans h2)) h3]
          exact valueAt_anti hd (Pt.time_le h2)) hT
        ((le_min (hBX _ (by simpa using hit) le_rfl) hBY).trans (hT.2 _ d le_rfl))
    obtain ⟨z', js2, c1, c2, c3⟩ := segmentOr_cts (R := fun T v => Unt X Y (pl T) (mi e) v) (X := fun _ => min zmax (X (mi t)))
      (Y := fun τ => (val (p2 :: r2) τ).getD 0) (e := e) (z := z)
      (i := ⟨i.time, fmin zmax (i.valueAt t), 0⟩) (js := (p2 :: r2).reverse) (t := t) hit hte
      (fun τ _ _ => by simp [Sample.valueAt, fmin_eq, ← hXt])
      (fun τ a b => by
        obtain ⟨v, hv, _⟩ := b5 τ a b
        rw [← val_eq_valR, hv]; rfl)
      (rsorted_reverse.2 b4)
      (fun q hq => by
        rcases List.mem_cons.1 (List.mem_reverse.1 hq) with rfl | hq
        · rw [b2]; exact hit
        · exact (b3 q hq).2)
      ⟨p2, by simp, b2.le⟩ hz hR
      (fun T a b => by
        obtain ⟨v, hv, hT⟩ := b5 (pl T) (by simpa using a.le) (by simpa using b)
        have := hfall (pl T) (by simpa using a.le) (by simpa using b) v hT
        simpa [hv] using this)
      (fun j hj a => by
        have a' : i.time < j.time := a
        have hj' := List.mem_reverse.1 hj
        have hjt' : j.time < t := by
          rcases List.mem_cons.1 hj' with rfl | hj'
          · rw [b2]; exact hit
          · exact (b3 j hj').2
        have := hfall (pl j.time) (by simpa using a'.le) (by simpa using hjt') _ (b6 j hj')
        simpa [Sample.valueAt, fmin_eq, ← hXt] using this)
    have hnew : ∀ τ, pl i.time ≤ τ → τ ≤ mi t → Unt X Y τ (mi e)
        (max (min zmax (X (mi t))) ((val (p2 :: r2) τ).getD 0)) := by
      intro τ c d
      obtain ⟨v, hv, hT⟩ := b5 τ c d
      simpa [hv] using hfall τ c d v hT
    refine ⟨z', j, js', _, ?_, a4, a5, c2, hnew, fin c2 hnew c3⟩
    simp only [segmentUntil, if_pos hd, a1, bind, Except.bind, List.reverse_cons, b1]
    rw [List.reverse_cons] at c1
    rw [c1]
  · have hd' := not_le.1 hd
    obtain ⟨pre, j, rest, e1, e2, e3⟩ := exists_cut hex
    subst e1
    obtain ⟨p1, r1, b1, b2, b3, b4, b5, b6⟩ := evSeg_cts (B := B) (Y := Y) hit hsrt
      (fun p hp => hjt p (by simp [hp])) e2 e3 (hL hd' pre j rest rfl e2 e3) hY
      (fun p hp => by
        have k := hvc p (by simp [hp]) (e2 p hp)
        exact ⟨by rw [hYc _ (e2 p hp) (hjt p (by simp [hp])), k], k.symm⟩) hBY
    set W : Pt → ℚ := fun τ => (val (p1 :: r1) τ).getD 0 with hW
    have hlt1 : ∀ q ∈ (p1 :: r1).reverse, q.time < t := by
      intro q hq
      rcases List.mem_cons.1 (List.mem_reverse.1 hq) with rfl | hq
      · rw [b2]; exact hit
      · exact (b3 q hq).2
    have hWv : ∀ q ∈ p1 :: r1, q.value = W (pl q.time) := by
      intro q hq
      have hs : i.time ≤ q.time ∧ q.time < t := by
        rcases List.mem_cons.1 hq with rfl | hq
        · exact ⟨b2.ge, by rw [b2]; exact hit⟩
        · exact ⟨(b3 q hq).1.le, (b3 q hq).2⟩
      obtain ⟨v, hv, hT⟩ := b5 (pl q.time) (by simpa using hs.1) (by simpa using hs.2)
      simp only [hW, hv, Option.getD_some]
      exact (b6 q hq).unique hT
    obtain ⟨p2, r2, j2, js2, c1, c2, -, -, -, c6, c7⟩ := segmentAnd_spec
      (P := fun T v => v = min (X (pl T)) (W (pl T))) (X := X) (Y := W) (e := t) (i := i) (js := (p1 :: r1).reverse)
      (z := []) hit.le le_rfl hX
      (fun τ a b => by
        obtain ⟨v, hv, _⟩ := b5 τ a b
        rw [← val_eq_valR, hW, hv]; simp only [hv, Option.getD_some])
      (rsorted_reverse.2 b4) (fun j hj => ⟨(hlt1 j hj).le, hlt1 j hj⟩) ⟨p1, by simp, b2.le⟩
      (Done.nil t _) (fun _ h => by simp at h) (fun _ _ _ => rfl)
      (fun j hj a => by
        have h2 := hX (pl j.time) (by simpa using a.le) (by simpa using hlt1 j hj)
        simp only [pl_time] at h2
        rw [h2, hWv j (List.mem_reverse.1 hj)])
    obtain ⟨p3, r3, j3, js3, d1, d2, -, -, -, d6, d7⟩ := segmentAnd_spec
      (P := fun T v => v = min (X (pl T)) zmax) (X := X) (Y := fun _ => zmax) (e := t) (i := i)
      (js := [⟨i.time, zmax, 0⟩])
      (z := []) hit.le le_rfl hX
      (fun τ a b => by
        rw [valR_cons_of_le (p := ⟨i.time, zmax, 0⟩) a]; simp [Sample.valueAt])
      (by simp [RSorted]) (fun j hj => by simp at hj; subst hj; exact ⟨hit.le, hit⟩)
      ⟨⟨i.time, zmax, 0⟩, by simp, le_rfl⟩
      (Done.nil t _) (fun _ h => by simp at h) (fun _ _ _ => rfl)
      (fun j hj a => by simp at hj; subst hj; exact absurd a (lt_irrefl _))
    have ltc : ∀ {p : Sample} {r : List Sample}, p.time = i.time →
        (∀ q ∈ r, q.time < t) → ∀ q ∈ (p :: r).reverse, q.time < t := by
      intro p r h1 h2 q hq
      rcases List.mem_cons.1 (List.mem_reverse.1 hq) with rfl | hq
      · rw [h1]; exact hit
      · exact h2 q hq
    have hWc : ∀ T, i.time < T → T < t → W (mi T) = W (pl T) := by
      intro T a b
      obtain ⟨v, hv, hT⟩ := b5 (pl T) (by simpa using a.le) (by simpa using b)
      obtain ⟨w, hw, hT'⟩ := b5 (mi T) (by simpa using a) (by simpa using b.le)
      simp only [hW, hv, hw, Option.getD_some]
      exact hT'.unique (hT.cts (hYc T a b) (by simpa using b))
    have hrise : ∀ τ, pl i.time ≤ τ → τ ≤ mi t → Unt X Y τ (mi e)
        (max (min (X τ) zmax) (min (X τ) (W τ))) := by
      intro τ c d
      obtain ⟨v, hv, hT⟩ := b5 τ c d
      have := unt_rising (B := B) (w1 := v) (zmax := zmax) (E := e) d hF
        (fun ρ h1 h2 => by
          rw [← hX ρ (c.trans h1) h2, ← hX τ c d]
          exact valueAt_mono hd'.le (Pt.time_le h1)) hT
        (le_min (hBX _ c d) (hBY.trans (hT.2 _ d le_rfl)))
      simpa [hW, hv] using this
    have on : ∀ {p : Sample} {r : List Sample} {G : Pt → ℚ}, p.time = i.time →
        Btw (fun T v => v = G (pl T)) i.time t r → ∀ q ∈ (p :: r).reverse, i.time < q.time →
          q.value = G (pl q.time) := by
      intro p r G h1 h2 q hq hs
      rcases List.mem_cons.1 (List.mem_reverse.1 hq) with rfl | hq
      · exact absurd hs (by rw [h1]; exact lt_irrefl _)
      · exact (h2 q hq).2.2
    obtain ⟨z', f1, f2, f3⟩ := partialOr_cts (R := fun T v => Unt X Y (pl T) (mi e) v) (X := fun τ => min (X τ) zmax)
      (Y := fun τ => min (X τ) (W τ)) (e := e) (z := z) (s := i.time) (is := (p3 :: r3).reverse)
      (js := (p2 :: r2).reverse) (t := t) hit hte
      (fun τ a b => by
        rw [← val_eq_valR]
        exact d6.den τ (by rw [mi_lt_iff]; exact a) b)
      (fun τ a b => by
        rw [← val_eq_valR]
        exact c6.den τ (by rw [mi_lt_iff]; exact a) b)
      (rsorted_reverse.2 d6.sorted) (rsorted_reverse.2 c6.sorted) (ltc d2 fun q hq => (d7 q hq).2.1)
      (ltc c2 fun q hq => (c7 q hq).2.1)
      ⟨p3, by simp, d2.le⟩ ⟨p2, by simp, c2.le⟩ hz hR
      (fun T a b => by
        obtain ⟨v, hv, hv'⟩ := hU (pl T) (by simpa using a) (by simpa using b)
        simpa [hv] using hv')
      (fun T a b => hrise (pl T) (by simpa using a.le) (by simpa using b))
      (on (G := fun τ => min (X τ) zmax) d2 d7) (on (G := fun τ => min (X τ) (W τ)) c2 c7)
      (fun T a b => by simp only [hXc T a b])
      (fun T a b => by simp only [hXc T a b, hWc T a b])
    refine ⟨z', j, rest, _, ?_, e3, ⟨pre, rfl, e2⟩, f2, hrise, fin f2 hrise f3⟩
    simp only [segmentUntil, if_neg hd, b1, bind, Except.bind, c1, d1, f1]

theorem untilLoop_cts {B : ℚ} {X Y : Pt → ℚ} {e s : ℚ}
    (hBX : ∀ τ, pl s ≤ τ → τ ≤ mi e → -B ≤ X τ) (hBY : ∀ τ, pl s ≤ τ → τ ≤ mi e → -B ≤ Y τ)
    (hYc : ∀ T, s < T → T < e → Y (mi T) = Y (pl T)) :
    ∀ (is js z : List Sample) (t zmax : ℚ), s < t → t ≤ e →
      (∀ τ, pl s ≤ τ → τ ≤ mi t → valR is τ = some (X τ)) →
      (∀ τ, pl s ≤ τ → τ ≤ mi t → valR js τ = some (Y τ)) →
      RInc is → RInc js → (∀ i ∈ is, i.time < t) → (∀ j ∈ js, j.time < t) →
      (∃ i ∈ is, i.time ≤ s) → (∃ j ∈ js, j.time ≤ s) →
      (∀ j ∈ js, s < j.time → j.value = Y (pl j.time)) →
      (∀ i ∈ is, 0 < i.derivative → ∀ pre j rest, js = pre ++ j :: rest →
        (∀ p ∈ pre, max s i.time < p.time) → j.time ≤ max s i.time →
        j.time = max s i.time ∨ 0 ≤ j.derivative) →
      Tail z t e → Fut B X Y t e zmax →
      (∀ τ, pl t ≤ τ → τ ≤ mi e → ∃ v, val z τ = some v ∧ Unt X Y τ (mi e) v) →
      (∀ q ∈ z, Unt X Y (pl q.time) (mi e) q.value) →
      ∃ p r, untilLoop B s z is js t zmax = .ok (p :: r) ∧ p.time = s ∧
        (∀ q ∈ r, s < q.time ∧ q.time < e) ∧ Sorted (p :: r) ∧
        (∀ τ, pl s ≤ τ → τ ≤ mi e → ∃ v, val (p :: r) τ = some v ∧ Unt X Y τ (mi e) v) ∧
        ∀ q ∈ p :: r, Unt X Y (pl q.time) (mi e) q.value
  | [], _, _, _, _, _, _, _, _, _, _, _, _, h, _, _, _, _, _, _, _ => by
    obtain ⟨_, h, _⟩ := h; simp at h
  | i :: is, js, z, t, zmax, hst, hte, hX, hY, his, hjs, hit, hjt, hei, hej, hg, hL, hz, hF, hU, hR => by
    have hit1 := hit i (by simp)
    have his' := List.pairwise_cons.1 his
    have glue : ∀ {z' : List Sample} {u : ℚ} {F : Pt → ℚ}, Ext z z' u t e F →
        (∀ τ, pl u ≤ τ → τ ≤ mi t → Unt X Y τ (mi e) (F τ)) →
        ∀ τ, pl u ≤ τ → τ ≤ mi e → ∃ v, val z' τ = some v ∧ Unt X Y τ (mi e) v := by
      intro z' u F h1 h2 τ a b
      rcases le_or_gt τ (mi t) with h4 | h4
      · exact ⟨_, h1.new τ a h4, h2 τ a h4⟩
      · rw [mi_lt_iff] at h4
        rw [h1.old τ h4 b]
        exact hU τ h4 b
    rw [untilLoop]
    by_cases h1 : s < i.time
    · rw [if_pos h1]
      have hle : pl s ≤ pl i.time := by simpa using h1.le
      have hme : mi t ≤ mi e := by simpa using hte
      obtain ⟨z', j, js', F, a1, a2, ⟨pre, a3, a3'⟩, a4, a5, a6⟩ := segmentUntil_cts (B := B) hit1 hte
        (fun τ a b => by
          have := hX τ (hle.trans a) b
          rw [valR_cons_of_le a] at this
          exact Option.some.inj this)
        (fun τ a b => hY τ (hle.trans a) b) hjs.rsorted hjt
        (by obtain ⟨j, hj, hj'⟩ := hej; exact ⟨j, hj, hj'.trans h1.le⟩)
        (fun T a b => hYc T (h1.trans a) (b.trans_le hte))
        (fun j hj hij => hg j hj (h1.trans hij))
        (fun τ a b => hBX τ (hle.trans a) (b.trans hme))
        (hBY _ (by simpa using hst) hme)
        (by
          have := hL i (by simp)
          rwa [max_eq_right h1.le] at this) hz hF hR hU
      have hie := hit1.trans_le hte
      obtain ⟨f, r, b1, b2, b3, b4⟩ := a4.front hit1
      have hjs' : RInc (j :: js') := by rw [a3] at hjs; exact (List.pairwise_append.1 hjs).2.1
      set js2 := if j.time = i.time then js' else j :: js' with hjs2
      have hsub : ∃ pre2, js = pre2 ++ js2 ∧ ∀ p ∈ pre2, i.time ≤ p.time := by
        by_cases hji : j.time = i.time
        · refine ⟨pre ++ [j], by rw [hjs2, if_pos hji, a3]; simp, ?_⟩
          intro p hp
          rcases List.mem_append.1 hp with hp | hp
          · exact (a3' p hp).le
          · simp only [List.mem_singleton] at hp
            rw [hp, hji]
        · exact ⟨pre, by rw [hjs2, if_neg hji, a3], fun p hp => (a3' p hp).le⟩
      obtain ⟨pre2, c1, c2⟩ := hsub
      have hmem : ∀ p ∈ js2, p ∈ js := by intro p hp; rw [c1]; simp [hp]
      have hlt2 : ∀ p ∈ js2, p.time < i.time := by
        intro p hp
        have hc := List.pairwise_cons.1 hjs'
        by_cases hji : j.time = i.time
        · rw [hjs2, if_pos hji] at hp
          exact (hc.1 p hp).trans_le a2
        · rw [hjs2, if_neg hji] at hp
          rcases List.mem_cons.1 hp with rfl | hp
          · exact lt_of_le_of_ne a2 hji
          · exact (hc.1 p hp).trans_le a2
      simp only [a1, bind, Except.bind, b1]
      have hrec := untilLoop_cts hBX hBY hYc is js2 z' i.time f.value h1 hie.le
        (fun τ a b => by
          rw [← hX τ a (b.trans (by simpa using hit1.le)), valR_cons_of_lt]
          exact lt_of_le_of_lt b (by simp))
        (fun τ a b => by
          rw [← hY τ a (b.trans (by simpa using hit1.le)), c1, valR_prefix]
          intro p hp
          exact lt_of_le_of_lt b (by simpa using c2 p hp))
        his'.2 (by rw [c1] at hjs; exact (List.pairwise_append.1 hjs).2.1)
        his'.1 hlt2
        (by
          obtain ⟨p, hp, hps⟩ := hei
          rcases List.mem_cons.1 hp with rfl | hp
          · exact absurd h1 (not_lt.2 hps)
          · exact ⟨p, hp, hps⟩)
        (by
          obtain ⟨p, hp, hps⟩ := hej
          rw [c1] at hp
          rcases List.mem_append.1 hp with hp | hp
          · exact absurd (h1.trans_le (c2 p hp)) (not_lt.2 hps)
          · exact ⟨p, hp, hps⟩)
        (fun j hj => hg j (hmem j hj))
        (by
          intro k hk hkd pre3 j3 rest3 h3 h4 h5
          refine hL k (by simp [hk]) hkd (pre2 ++ pre3) j3 rest3 (by rw [c1, h3]; simp) ?_ h5
          intro p hp
          rcases List.mem_append.1 hp with hp | hp
          · exact (max_lt h1 (his'.1 k hk)).trans_le (c2 p hp)
          · exact h4 p hp)
        (a4.tail hz hie)
        (Or.inr ⟨hie, by rw [b3]; exact a5 _ le_rfl (by simpa using hit1)⟩)
        (glue a4 a5) a6
      rw [b1] at hrec
      exact hrec
    · rw [if_neg h1]
      set i0 : Sample := ⟨s, i.valueAt s, i.derivative⟩ with hi0
      have hseg : ∃ z' js' F, segmentUntil B z i0 t js zmax = .ok (z', js') ∧
          Ext z z' s t e F ∧ (∀ τ, pl s ≤ τ → τ ≤ mi t → Unt X Y τ (mi e) (F τ)) ∧
          ∀ q ∈ z', Unt X Y (pl q.time) (mi e) q.value := by
        have hme : mi t ≤ mi e := by simpa using hte
        obtain ⟨z', j, js', F, a1, a2, -, a4, a5, a6⟩ := segmentUntil_cts (B := B) (i := i0) hst hte
          (fun τ a b => by
            have a' : pl i.time ≤ τ := le_trans (by simpa using h1) a
            have := hX τ a b
            rw [valR_cons_of_le a'] at this
            rw [hi0, valueAt_move]
            exact Option.some.inj this)
          (fun τ a b => hY τ a b) hjs.rsorted hjt hej
          (fun T a b => hYc T a (b.trans_le hte))
          (fun j hj hij => hg j hj hij)
          (fun τ a b => hBX τ a (b.trans hme))
          (hBY _ (by simpa using hst) hme)
          (by
            have := hL i (by simp)
            rwa [max_eq_left (not_lt.1 h1)] at this) hz hF hR hU
        exact ⟨z', _, F, a1, a4, a5, a6⟩
      obtain ⟨z', js', F, a1, a4, a5, a6⟩ := hseg
      obtain ⟨p, r, b1, b2, b3⟩ := a4.cons
      have hfin : z' = p :: r ∧ p.time = s ∧
        (∀ q ∈ r, s < q.time ∧ q.time < e) ∧ Sorted (p :: r) ∧
        (∀ τ, pl s ≤ τ → τ ≤ mi e → ∃ v, val (p :: r) τ = some v ∧ Unt X Y τ (mi e) v) ∧
        ∀ q ∈ p :: r, Unt X Y (pl q.time) (mi e) q.value :=
        ⟨b1, b2, b3, b1 ▸ a4.sorted, b1 ▸ glue a4 a5, b1 ▸ a6⟩
      by_cases h2 : i.time = s
      · have hii : i0 = i := by
          cases i
          simp only at h2
          subst h2
          simp [hi0, Sample.valueAt]
        rw [if_pos h2, ← hii, a1]
        exact ⟨p, r, by simp only [bind, Except.bind, b1], hfin.2⟩
      · rw [if_neg h2, a1]
        exact ⟨p, r, by simp only [bind, Except.bind, b1], hfin.2⟩

theorem Unt.cts {X Y : Pt → ℚ} {t v w : ℚ} {U : Pt} (hX : X (mi t) = X (pl t)) (hY : Y (mi t) = Y (pl t))
    (h : Unt X Y (mi t) U v) (h' : Unt X Y (pl t) U w) (hU : pl t ≤ U) : v = w := by
  refine h.unique ⟨?_, fun σ u a b c d => ?_⟩
  · obtain ⟨σ, a, b, c, d⟩ := h'.1
    refine ⟨σ, le_trans (by simp) a, b, c, fun ρ p q => ?_⟩
    rcases eq_or_lt_of_le p with rfl | p
    · rw [hX]; exact d _ le_rfl a
    · rw [mi_lt_iff] at p; exact d ρ p q
  · rcases eq_or_lt_of_le a with rfl | a
    · refine h'.2 (pl t) u le_rfl hU (by rw [← hY]; exact c) fun ρ p q => ?_
      rw [le_antisymm q p, ← hX]
      exact d _ le_rfl le_rfl
    · rw [mi_lt_iff] at a
      exact h'.2 σ u a b c fun ρ p q => d ρ (le_trans (by simp) p) q

/-- `until` over continuous signals is continuous. -/
theorem computeUntil_cg {B : ℚ} {x y : Signal} (hx : WF0 x) (hy : WF0 y) (ix : SInc x.samples)
    (iy : SInc y.samples) (hlt : max x.beginTime y.beginTime < min x.endTime y.endTime)
    (hBx : ∀ σ, pl x.beginTime ≤ σ → σ ≤ pl x.endTime → -B ≤ x.v σ)
    (hBy : ∀ σ, pl y.beginTime ≤ σ → σ ≤ pl y.endTime → -B ≤ y.v σ)
    (hL : Spec.RisesClear x y) (cx : CG x) (cy : CG y) {z0 : Signal} (hz : computeUntil B x y = .ok z0) :
    CG z0 := by
  set b := max x.beginTime y.beginTime with hb
  set e := min x.endTime y.endTime with he
  have hbx : x.beginTime ≤ b := le_max_left _ _
  have hby : y.beginTime ≤ b := le_max_right _ _
  have hex : e ≤ x.endTime := min_le_left _ _
  have hey : e ≤ y.endTime := min_le_right _ _
  have side : ∀ {x : Signal}, WF0 x → SInc x.samples → x.beginTime ≤ b → ∃ is,
      skip e x.samples.reverse = .ok is ∧
      RInc is ∧ (∀ p ∈ is, p.time < e) ∧ (∃ p ∈ is, p.time ≤ b) ∧ (∀ p ∈ is, p ∈ x.samples) ∧
      (∀ p ∈ x.samples, p.time < e → p ∈ is) ∧
      ∀ τ, pl b ≤ τ → τ ≤ mi e → valR is τ = some (x.v τ) := by
    intro x hx ix hbx
    obtain ⟨p, l, hxs, hp⟩ := hx.exists_cons
    have hpm : p ∈ x.samples.reverse := by simp [hxs]
    have hpb : p.time ≤ b := by rw [hp]; exact hbx
    obtain ⟨is, h1, h2, h3, h4, h4', h5, h6⟩ := skip_spec (rsorted_reverse.2 hx.sorted)
      ⟨p, hpm, hpb.trans_lt hlt⟩
    refine ⟨is, h1, ?_, h4, ⟨p, h5 p hpm (hpb.trans_lt hlt), hpb⟩,
      fun q hq => by simpa using h4' q hq, fun q hq hqe => h5 q (by simpa using hq) hqe, ?_⟩
    · obtain ⟨pre, hpre⟩ := skip_suffix h1
      have := rinc_reverse.2 ix
      rw [hpre] at this
      exact (List.pairwise_append.1 this).2.1
    intro τ a c
    rw [h6 τ c, ← val_eq_valR]
    exact hx.val (le_trans (by simpa using hbx) a)
  obtain ⟨is, a1, a3, a4, a5, a5', -, a6⟩ := side hx ix hbx
  obtain ⟨js, b1, b3, b4, b5, b5', b5'', b6⟩ := side hy iy hby
  obtain ⟨p, r, c1, c2, c3, c4, c5, c6⟩ := untilLoop_cts (B := B) (X := x.v) (Y := y.v) (e := e) (s := b)
    (fun τ c d => hBx τ (le_trans (by simpa using hbx) c) (d.trans (by simpa using hex)))
    (fun τ c d => hBy τ (le_trans (by simpa using hby) c) (d.trans (by simpa using hey)))
    (fun T c d => cy.cts T (hby.trans_lt c) (d.le.trans hey))
    is js [] e (-B) hlt le_rfl a6 b6 a3 b3 a4 b4 a5 b5
    (fun j hj _ => cy.vc j (b5' j hj))
    (by
      intro i hi hd pre j rest h1 h2 h3
      by_contra hcon
      push Not at hcon
      obtain ⟨k, k1, k2, k3⟩ := hL i (a5' i hi) hd (a4 i hi) j (b5' j (by rw [h1]; simp)) hcon.2
        (lt_of_le_of_ne h3 hcon.1)
      have hm : max b i.time < e := max_lt hlt (a4 i hi)
      have k4 := b5'' k k1 (k3.trans_lt hm)
      rw [h1] at k4
      rcases List.mem_append.1 k4 with h | h
      · exact absurd k3 (not_le.2 (h2 k h))
      · rcases List.mem_cons.1 h with rfl | h
        · exact lt_irrefl _ k2
        · rw [h1] at b3
          have := (List.pairwise_cons.1 (List.pairwise_append.1 b3).2.1).1 k h
          exact lt_asymm this k2)
    (Tail.nil e) (Or.inl ⟨rfl, rfl⟩) (fun τ c d => by have := c.trans d; simp at this)
    (by simp)
  have hlte : ∀ q ∈ p :: r, q.time < e := by
    intro q hq
    rcases List.mem_cons.1 hq with rfl | hq
    · rw [c2]; exact hlt
    · exact (c3 q hq).2
  have hwf : WF ⟨p :: r, b, e⟩ := by
    refine ⟨⟨by simp, by simpa using c2, c4, fun q hq => (hlte q hq).le⟩, ?_⟩
    intro q hq
    exact (c3 q (by simpa using hq)).1
  obtain ⟨z, d1, d2, d3, d4, d5, d6, m, d7, d8⟩ := simplify_spec' hwf
  obtain rfl : z = z0 := by
    rw [computeUntil] at hz
    simp only [fmax_eq, fmin_eq, ← hb, ← he, a1, b1, c1, bind, Except.bind, d1] at hz
    exact Except.ok.inj hz
  have hval : ∀ τ, pl b ≤ τ → τ ≤ mi e → Unt x.v y.v τ (mi e) (z.v τ) := by
    intro τ h1 h2
    obtain ⟨v, hv, hU⟩ := c5 τ h1 h2
    rw [Signal.v_of_val (a := v) (by rw [d5 τ (h2.trans (by simp))]; exact hv)]
    exact hU
  have hlast : z.v (pl e) = z.v (mi e) := by
    unfold Signal.v
    rw [d5 (pl e) le_rfl, d5 (mi e) (by simp)]
    congr 1
    simp only [val]
    have : cur (p :: r) (pl e) = cur (p :: r) (mi e) := by
      rw [cur_eq_find, cur_eq_find]
      apply find?_congr'
      intro q hq
      have hqe : q.time < e := hlte q (List.mem_reverse.1 hq)
      simp [hqe, hqe.le]
    rw [this]
    rfl
  have hold : ∀ q ∈ m, q.value = z.v (pl q.time) := by
    intro q hq
    have hm : q ∈ p :: r := d7.subset hq
    have h1 : b ≤ q.time := by
      rcases List.mem_cons.1 hm with rfl | hm
      · exact c2.ge
      · exact (c3 q hm).1.le
    exact (c6 q hm).unique (hval _ (by simpa using h1) (by simpa using hlte q hm))
  constructor
  · intro t h1 h2
    rw [d2] at h1
    rw [d3] at h2
    have h1 : b < t := h1
    have h2 : t ≤ e := h2
    rcases h2.lt_or_eq with h2 | rfl
    · exact Unt.cts (cx.cts t (hbx.trans_lt h1) (h2.le.trans hex)) (cy.cts t (hby.trans_lt h1) (h2.le.trans hey))
        (hval _ (by simpa using h1) (by simpa using h2.le)) (hval _ (by simpa using h1.le) (by simpa using h2))
        (by simpa using h2)
    · exact hlast.symm
  · intro q hq
    rcases d8 with d8 | ⟨k, k1, k2, k3⟩
    · exact hold q (by rw [← d8]; exact hq)
    · rw [k3] at hq
      rcases List.mem_append.1 hq with hq | hq
      · exact hold q hq
      · simp only [List.mem_singleton] at hq
        subst hq
        have : val z.samples (pl e) = some (k.valueAt e) := by
          rw [k3, val_snoc (by simp)]
          simp [Sample.valueAt]
        exact (Signal.v_of_val this).symm


end STLRom
