import Verif.Proofs.Timed

/-!
# The operators on signals run through on any non-empty signal

No assumption on the order of the samples or on the end time is made: only that the first sample
sits at the begin time.
-/

namespace STLRom
open Signal

/-- A non-empty signal whose first sample is at its begin time. -/
def Hd (z : Signal) : Prop := ∃ p l, z.samples = p :: l ∧ p.time = z.beginTime

/-- The last sample is at `s` or before. -/
def LastLe (l : List Sample) (s : ℚ) : Prop := ∃ q, l.getLast? = some q ∧ q.time ≤ s

theorem LastLe.ne {l : List Sample} {s : ℚ} (h : LastLe l s) : l ≠ [] := by
  rintro rfl
  obtain ⟨q, hq, _⟩ := h
  simp at hq

theorem LastLe.tail {p : Sample} {l : List Sample} {s : ℚ} (h : LastLe (p :: l) s) (hp : s < p.time) :
    LastLe l s := by
  obtain ⟨q, hq, hs⟩ := h
  cases l with
  | nil =>
    simp only [List.getLast?_singleton, Option.some.injEq] at hq
    rw [← hq] at hs
    exact absurd hs (not_le.2 hp)
  | cons r l => exact ⟨q, by rwa [List.getLast?_cons_cons] at hq, hs⟩

theorem LastLe.mono {l : List Sample} {s t : ℚ} (h : LastLe l s) (hs : s ≤ t) : LastLe l t := by
  obtain ⟨q, hq, h⟩ := h
  exact ⟨q, hq, h.trans hs⟩

namespace Signal

theorem timeIntersect_total {i j : Sample} (h : j.derivative ≠ i.derivative) :
    ∃ t, i.timeIntersect j = .ok t :=
  ⟨_, by unfold Sample.timeIntersect qdiv; rw [if_neg (sub_ne_zero.2 h)]⟩

/-- Two lines that cross have different slopes. -/
theorem slopes_ne {i j : Sample} {t u : ℚ} (h : i.valueAt t < j.valueAt t) (h' : j.valueAt u < i.valueAt u) :
    j.derivative ≠ i.derivative := by
  intro e
  unfold Sample.valueAt at h h'
  rw [e] at h h'
  nlinarith

theorem value_self (p : Sample) : p.valueAt p.time = p.value := by
  simp [Sample.valueAt]

theorem segmentAndLoop_total (i : Sample) : ∀ (js z : List Sample) (t : ℚ) (c : Bool),
    LastLe js i.time → ∃ z' t' c' j js', segmentAndLoop i z t c js = .ok (z', t', c', j :: js') ∧
      j.time ≤ i.time ∧ ∀ s, s ≤ i.time → LastLe js s → LastLe (j :: js') s
  | [], _, _, _, h => absurd rfl h.ne
  | j :: js, z, t, c, h => by
    unfold segmentAndLoop
    by_cases h0 : i.time < j.time
    · rw [if_pos h0]
      have ih := fun z t c => segmentAndLoop_total i js z t c (h.tail h0)
      have ih' : ∀ z t c, ∃ z' t' c' j' js', segmentAndLoop i z t c js = .ok (z', t', c', j' :: js') ∧
          j'.time ≤ i.time ∧ ∀ s, s ≤ i.time → LastLe (j :: js) s → LastLe (j' :: js') s := by
        intro z t c
        obtain ⟨z', t', c', j', js', h1, h2, h3⟩ := ih z t c
        exact ⟨z', t', c', j', js', h1, h2, fun s hs hl => h3 s hs (hl.tail (hs.trans_lt h0))⟩
      by_cases h1 : i.valueAt t < j.valueAt t
      · rw [if_pos h1]
        by_cases h2 : i.valueAt j.time > j.value
        · rw [if_pos h2]
          obtain ⟨t', ht⟩ := timeIntersect_total (slopes_ne h1 (u := j.time) (by rw [value_self]; exact h2))
          simp only [ht, bind, Except.bind]
          exact ih' _ _ _
        · rw [if_neg h2]; exact ih' _ _ _
      · rw [if_neg h1]
        by_cases h3 : i.valueAt t = j.valueAt t
        · rw [if_pos h3]
          by_cases h2 : i.valueAt j.time > j.value
          · rw [if_pos h2]; exact ih' _ _ _
          · rw [if_neg h2]; exact ih' _ _ _
        · rw [if_neg h3]
          by_cases h2 : i.valueAt j.time < j.value
          · rw [if_pos h2]
            have h4 : j.valueAt t < i.valueAt t := lt_of_le_of_ne (not_lt.1 h1) (Ne.symm h3)
            obtain ⟨t', ht⟩ := timeIntersect_total (i := i) (j := j)
              (slopes_ne (t := j.time) (u := t) (by rw [value_self]; exact h2) h4)
            simp only [ht, bind, Except.bind]
            exact ih' _ _ _
          · rw [if_neg h2]; exact ih' _ _ _
    · rw [if_neg h0]
      exact ⟨z, t, c, j, js, rfl, not_lt.1 h0, fun _ _ h => h⟩

theorem segmentAndLast_total (i j : Sample) (z : List Sample) (t : ℚ) (c : Bool) :
    ∃ p z', segmentAndLast i z t c j = .ok (p :: z') ∧ p.time = i.time := by
  unfold segmentAndLast
  simp only
  by_cases h1 : i.valueAt t < j.valueAt t
  · rw [if_pos h1]
    by_cases h2 : i.value > j.valueAt i.time
    · rw [if_pos h2]
      obtain ⟨t', ht⟩ := timeIntersect_total (slopes_ne h1 (u := i.time) (by rw [value_self]; exact h2))
      simp only [ht, bind, Except.bind]
      exact ⟨_, _, rfl, rfl⟩
    · rw [if_neg h2]; exact ⟨_, _, rfl, rfl⟩
  · rw [if_neg h1]
    by_cases h3 : i.valueAt t = j.valueAt t
    · rw [if_pos h3]
      by_cases h2 : i.value > j.valueAt i.time
      · rw [if_pos h2]; exact ⟨_, _, rfl, rfl⟩
      · rw [if_neg h2]; exact ⟨_, _, rfl, rfl⟩
    · rw [if_neg h3]
      by_cases h2 : i.value < j.valueAt i.time
      · rw [if_pos h2]
        have h4 : j.valueAt t < i.valueAt t := lt_of_le_of_ne (not_lt.1 h1) (Ne.symm h3)
        obtain ⟨t', ht⟩ := timeIntersect_total (i := i) (j := j)
          (slopes_ne (t := i.time) (u := t) (by rw [value_self]; exact h2) h4)
        simp only [ht, bind, Except.bind]
        exact ⟨_, _, rfl, rfl⟩
      · rw [if_neg h2]; exact ⟨_, _, rfl, rfl⟩

theorem segmentAnd_total (i : Sample) (js z : List Sample) (t : ℚ) (h : LastLe js i.time) :
    ∃ p z' j js', segmentAnd z i t js = .ok (p :: z', j :: js') ∧ p.time = i.time ∧
      j.time ≤ i.time ∧ ∀ s, s ≤ i.time → LastLe js s → LastLe (j :: js') s := by
  obtain ⟨z', t', c', j, js', h1, h2, h3⟩ := segmentAndLoop_total i js z t false h
  obtain ⟨p, z'', h4, h5⟩ := segmentAndLast_total i j z' t' c'
  refine ⟨p, z'', j, js', ?_, h5, h2, h3⟩
  unfold segmentAnd
  simp only [h1, bind, Except.bind, h4]

theorem partialAnd_total (s : ℚ) : ∀ (is z js : List Sample) (t : ℚ), LastLe is s → LastLe js s →
    ∃ p z', partialAnd s z is js t = .ok (p :: z') ∧ p.time = s
  | [], _, _, _, h, _ => absurd rfl h.ne
  | i :: is, z, js, t, hi, hj => by
    unfold partialAnd
    by_cases h0 : s < i.time
    · rw [if_pos h0]
      obtain ⟨p, z', j, js', h1, h2, h3, h4⟩ := segmentAnd_total i js z t (hj.mono h0.le)
      simp only [h1, bind, Except.bind]
      have hl := h4 s h0.le hj
      refine partialAnd_total s is _ _ _ (hi.tail h0) ?_
      by_cases h5 : j.time = i.time
      · rw [if_pos h5]
        exact hl.tail (by rw [h5]; exact h0)
      · rw [if_neg h5]; exact hl
    · rw [if_neg h0]
      by_cases h1 : i.time = s
      · rw [if_pos h1]
        obtain ⟨p, z', j, js', h2, h3, _⟩ := segmentAnd_total i js z t (by rw [h1]; exact hj)
        simp only [h2, bind, Except.bind]
        exact ⟨p, z', rfl, h3.trans h1⟩
      · rw [if_neg h1]
        obtain ⟨p, z', j, js', h2, h3, _⟩ := segmentAnd_total ⟨s, i.valueAt s, i.derivative⟩ js z t hj
        simp only [h2, bind, Except.bind]
        exact ⟨p, z', rfl, h3⟩

theorem simplifyLoop_total (bt : ℚ) : ∀ (n : ℕ) (l : List Sample),
    (∃ k, k ≤ n ∧ ∃ p, l[k]? = some p ∧ p.time = bt) →
    ∃ p r, simplifyLoop bt n l = .ok (p :: r) ∧ p.time = bt
  | n, [], h => by
    obtain ⟨k, _, p, hp, _⟩ := h
    simp at hp
  | 0, f :: r, h => by
    obtain ⟨k, hk, p, hp, hb⟩ := h
    obtain rfl : k = 0 := by omega
    simp only [List.getElem?_cons_zero, Option.some.injEq] at hp
    subst hp
    exact ⟨f, r, by simp [simplifyLoop, hb], hb⟩
  | n + 1, f :: r, h => by
    unfold simplifyLoop
    by_cases h0 : f.time = bt
    · rw [if_pos h0]; exact ⟨f, r, rfl, h0⟩
    · rw [if_neg h0]
      obtain ⟨b, hb⟩ : ∃ b, (f :: r).getLast? = some b := ⟨_, List.getLast?_eq_some_getLast (by simp)⟩
      rw [hb]
      simp only
      obtain ⟨k, hk, p, hp, hpb⟩ := h
      cases k with
      | zero =>
        simp only [List.getElem?_cons_zero, Option.some.injEq] at hp
        rw [hp] at h0
        exact absurd hpb h0
      | succ k =>
        rw [List.getElem?_cons_succ] at hp
        have hp' : (r ++ [f])[k]? = some p := by
          rw [List.getElem?_append_left]
          · exact hp
          · exact (List.getElem?_eq_some_iff.1 hp).1
        split
        · exact simplifyLoop_total bt n _ ⟨k, by omega, p, hp', hpb⟩
        · exact simplifyLoop_total bt n _ ⟨k, by omega, p, hp, hpb⟩

theorem simplify_total {x : Signal} (h : Hd x) : ∃ z, simplify x = .ok z ∧ Hd z ∧
    z.beginTime = x.beginTime ∧ z.endTime = x.endTime := by
  obtain ⟨p, l, hl, hp⟩ := h
  unfold simplify
  rw [hl]
  obtain ⟨q, r, h1, h2⟩ := simplifyLoop_total x.beginTime (l.length + 1) (l ++ [p])
    ⟨l.length, by omega, p, by simp, hp⟩
  simp only [h1, bind, Except.bind]
  obtain ⟨b, hb⟩ : ∃ b, (q :: r).getLast? = some b := ⟨_, List.getLast?_eq_some_getLast (by simp)⟩
  rw [hb]
  simp only
  split
  · exact ⟨_, rfl, ⟨q, r ++ [_], rfl, h2⟩, rfl, rfl⟩
  · exact ⟨_, rfl, ⟨q, r, rfl, h2⟩, rfl, rfl⟩

theorem skipGuarded_total (e : ℚ) : ∀ (l : List Sample) (s : ℚ), LastLe l s →
    ∃ l', skipGuarded e l = .ok l' ∧ LastLe l' s
  | [], _, h => absurd rfl h.ne
  | [p], _, h => ⟨[p], rfl, h⟩
  | p :: q :: r, s, h => by
    unfold skipGuarded
    split
    · refine skipGuarded_total e (q :: r) s ?_
      obtain ⟨b, hb, hs⟩ := h
      exact ⟨b, by rwa [List.getLast?_cons_cons] at hb, hs⟩
    · exact ⟨_, rfl, h⟩

theorem skip_total (e : ℚ) : ∀ (l : List Sample) (s : ℚ), LastLe l s → s < e →
    ∃ l', skip e l = .ok l' ∧ LastLe l' s
  | [], _, h, _ => absurd rfl h.ne
  | p :: r, s, h, hs => by
    unfold skip
    by_cases h0 : e ≤ p.time
    · rw [if_pos h0]
      exact skip_total e r s (h.tail (hs.trans_le h0)) hs
    · rw [if_neg h0]; exact ⟨_, rfl, h⟩

theorem Hd_last {x : Signal} (h : Hd x) {s : ℚ} (hs : x.beginTime ≤ s) : LastLe x.samples.reverse s := by
  obtain ⟨p, l, hl, hp⟩ := h
  exact ⟨p, by simp [hl], by rw [hp]; exact hs⟩

theorem fmax_le_left (a b : ℚ) : a ≤ fmax a b := by
  unfold fmax; split_ifs <;> linarith

theorem fmax_le_right (a b : ℚ) : b ≤ fmax a b := by
  unfold fmax; split_ifs <;> linarith

theorem computeAndM_total {x y : Signal} (hx : Hd x) (hy : Hd y) : ∃ z, computeAndM x y = .ok z ∧ Hd z ∧
    z.beginTime = fmax x.beginTime y.beginTime ∧ z.endTime = fmin x.endTime y.endTime := by
  obtain ⟨is, h1, h2⟩ := skipGuarded_total (fmin x.endTime y.endTime) _ _
    (Hd_last hx (fmax_le_left x.beginTime y.beginTime))
  obtain ⟨js, h3, h4⟩ := skipGuarded_total (fmin x.endTime y.endTime) _ _
    (Hd_last hy (fmax_le_right x.beginTime y.beginTime))
  obtain ⟨p, z', h5, h6⟩ := partialAnd_total _ is [] js (fmin x.endTime y.endTime) h2 h4
  obtain ⟨z, h7, h8⟩ := simplify_total (x := ⟨p :: z', fmax x.beginTime y.beginTime,
    fmin x.endTime y.endTime⟩) ⟨p, z', rfl, h6⟩
  refine ⟨z, ?_, h8⟩
  simp only [computeAndM, h1, h3, h5, bind, Except.bind, h7]

theorem computeAnd_total {x y : Signal} (hx : Hd x) (hy : Hd y)
    (h : fmax x.beginTime y.beginTime < fmin x.endTime y.endTime) :
    ∃ z, computeAnd x y = .ok z ∧ Hd z ∧
      z.beginTime = fmax x.beginTime y.beginTime ∧ z.endTime = fmin x.endTime y.endTime := by
  obtain ⟨is, h1, h2⟩ := skip_total (fmin x.endTime y.endTime) _ _
    (Hd_last hx (fmax_le_left x.beginTime y.beginTime)) h
  obtain ⟨js, h3, h4⟩ := skip_total (fmin x.endTime y.endTime) _ _
    (Hd_last hy (fmax_le_right x.beginTime y.beginTime)) h
  obtain ⟨p, z', h5, h6⟩ := partialAnd_total _ is [] js (fmin x.endTime y.endTime) h2 h4
  obtain ⟨z, h7, h8⟩ := simplify_total (x := ⟨p :: z', fmax x.beginTime y.beginTime,
    fmin x.endTime y.endTime⟩) ⟨p, z', rfl, h6⟩
  refine ⟨z, ?_, h8⟩
  simp only [computeAnd, h1, h3, h5, bind, Except.bind, h7]

theorem Hd_not {x : Signal} (h : Hd x) : Hd (computeNot x) := by
  obtain ⟨p, l, hl, hp⟩ := h
  exact ⟨p.neg, l.map Sample.neg, by rw [computeNot_samples, hl]; rfl, hp⟩

theorem computeOrM_total {x y : Signal} (hx : Hd x) (hy : Hd y) : ∃ z, computeOrM x y = .ok z ∧ Hd z ∧
    z.beginTime = fmax x.beginTime y.beginTime ∧ z.endTime = fmin x.endTime y.endTime := by
  obtain ⟨z, h1, h2, h3, h4⟩ := computeAndM_total (Hd_not hx) (Hd_not hy)
  rw [computeAndM_not] at h1
  exact ⟨computeNot z, except_map_computeNot h1, Hd_not h2, h3, h4⟩

theorem computeOr_total {x y : Signal} (hx : Hd x) (hy : Hd y)
    (h : fmax x.beginTime y.beginTime < fmin x.endTime y.endTime) :
    ∃ z, computeOr x y = .ok z ∧ Hd z ∧
      z.beginTime = fmax x.beginTime y.beginTime ∧ z.endTime = fmin x.endTime y.endTime := by
  obtain ⟨z, h1, h2, h3, h4⟩ := computeAnd_total (Hd_not hx) (Hd_not hy) h
  rw [computeAnd_not] at h1
  exact ⟨computeNot z, except_map_computeNot h1, Hd_not h2, h3, h4⟩

theorem partialEventually_total (s : ℚ) : ∀ (is z : List Sample) (t : ℚ) (c : Bool) (m : ℚ),
    LastLe is s → ∃ p z' i, partialEventually s z is t c m = .ok (p :: z', i) ∧ p.time = s
  | [], _, _, _, _, h => absurd rfl h.ne
  | i :: is, z, t, c, m, h => by
    unfold partialEventually
    have hq : ¬ 0 ≤ i.derivative → ∀ w, ∃ d, qdiv w i.derivative = .ok d := by
      intro hd w
      exact ⟨_, by unfold qdiv; rw [if_neg (fun e => hd e.ge)]⟩
    by_cases h0 : s < i.time
    · rw [if_pos h0]
      have ih := fun z t c m => partialEventually_total s is z t c m (h.tail h0)
      by_cases h1 : 0 ≤ i.derivative
      · rw [if_pos h1]
        split <;> exact ih _ _ _ _
      · rw [if_neg h1]
        split
        · exact ih _ _ _ _
        · split
          · exact ih _ _ _ _
          · obtain ⟨d, hd⟩ := hq h1 (m - i.value)
            simp only [hd, bind, Except.bind]
            exact ih _ _ _ _
    · rw [if_neg h0]
      by_cases h1 : 0 ≤ i.derivative
      · rw [if_pos h1]
        split <;> exact ⟨_, _, _, rfl, rfl⟩
      · rw [if_neg h1]
        split
        · exact ⟨_, _, _, rfl, rfl⟩
        · split
          · exact ⟨_, _, _, rfl, rfl⟩
          · obtain ⟨d, hd⟩ := hq h1 (m - i.value)
            simp only [hd, bind, Except.bind]
            exact ⟨_, _, _, rfl, rfl⟩

theorem computeEventually_total (B : ℚ) {x : Signal} (hx : Hd x) : ∃ z, computeEventually B x = .ok z ∧
    Hd z ∧ z.beginTime = x.beginTime ∧ z.endTime = x.endTime := by
  obtain ⟨p, z', i, h1, h2⟩ := partialEventually_total x.beginTime x.samples.reverse [] x.endTime false
    (-B) (Hd_last hx le_rfl)
  refine ⟨⟨p :: z', x.beginTime, x.endTime⟩, ?_, ⟨p, z', rfl, h2⟩, rfl, rfl⟩
  simp only [computeEventually, h1, bind, Except.bind]

theorem popMax_length (v : ℚ) (m : List Point) : (popMax v m).length ≤ m.length := by
  unfold popMax
  rw [List.length_reverse, ← List.length_reverse (as := m)]
  exact (List.dropWhile_suffix _).length_le

theorem initMax_total (lim : ℚ) : ∀ (is m : List Point), (∃ i ∈ is, lim ≤ i.time) →
    ∃ m' i is', initMax lim m is = .ok (m', i :: is') ∧ m'.length + (i :: is').length ≤ m.length + is.length
  | [], _, h => by simp at h
  | i :: is, m, h => by
    unfold initMax
    by_cases h0 : i.time < lim
    · rw [if_pos h0]
      obtain ⟨i', hi, hl⟩ := h
      obtain ⟨m', j, is', h1, h2⟩ := initMax_total lim is (popMax i.value m ++ [i]) (by
        rcases List.mem_cons.1 hi with rfl | hi
        · exact absurd hl (not_le.2 h0)
        · exact ⟨i', hi, hl⟩)
      refine ⟨m', j, is', h1, h2.trans ?_⟩
      have := popMax_length i.value m
      simp only [List.length_append, List.length_cons, List.length_nil]
      omega
    · rw [if_neg h0]
      exact ⟨m, i, is, rfl, le_rfl⟩

/-- The loop of `plateauMax` ends within the given number of rounds, keeps what was written and
writes a sample at `t`, and another one if a point is left. -/
theorem plateauMaxLoop_total (B a : ℚ) : ∀ (n : ℕ) (m is : List Point) (z : List Sample) (t : ℚ)
    (newC endC : Bool), (newC = true → is ≠ []) → (endC = true → m ≠ []) →
    m.length + 2 * is.length + (if newC || endC then 0 else 1) ≤ n →
    ∃ pre v, plateauMaxLoop B a n m is z t newC endC = .ok (pre ++ ⟨t, v, 0⟩ :: z) ∧
      (is ≠ [] → pre ≠ [])
  | 0, m, is, z, t, newC, endC, h1, h2, h3 => by
    exfalso
    cases newC with
    | true =>
      have := List.length_pos_of_ne_nil (h1 rfl)
      omega
    | false =>
      cases endC with
      | true =>
        have := List.length_pos_of_ne_nil (h2 rfl)
        omega
      | false => simp at h3
  | n + 1, m, is, z, t, newC, endC, h1, h2, h3 => by
    obtain ⟨m1, hm1, hl1⟩ : ∃ m1, popFront endC m = .ok m1 ∧
        m1.length + (if endC then 1 else 0) = m.length := by
      cases endC with
      | false => exact ⟨m, rfl, rfl⟩
      | true =>
        cases m with
        | nil => exact absurd rfl (h2 rfl)
        | cons p m => exact ⟨m, rfl, rfl⟩
    obtain ⟨m2, is2, hm2, hl2, hne, hne'⟩ : ∃ m2 is2, enterMax newC m1 is = .ok (m2, is2) ∧
        m2.length + 2 * is2.length + (if newC then 1 else 0) ≤ m1.length + 2 * is.length ∧
        (is ≠ [] → m2 ≠ [] ∨ is2 ≠ []) ∧ True := by
      cases newC with
      | false => exact ⟨m1, is, rfl, le_rfl, Or.inr, trivial⟩
      | true =>
        cases is with
        | nil => exact absurd rfl (h1 rfl)
        | cons i is =>
          refine ⟨_, _, rfl, ?_, fun _ => Or.inl (by simp), trivial⟩
          have := popMax_length i.value m1
          simp only [List.length_append, List.length_cons, List.length_nil, if_true]
          omega
    unfold plateauMaxLoop
    simp only [hm1, hm2, bind, Except.bind]
    have hn : m2.length + 2 * is2.length ≤ n := by
      cases newC <;> cases endC <;> simp at h3 hl1 hl2 <;> omega
    have go : ∀ (t' : ℚ) (c d : Bool), (c = true → is2 ≠ []) → (d = true → m2 ≠ []) → (c || d) = true →
        ∃ pre v, plateauMaxLoop B a n m2 is2 (⟨t, frontVal (-B) m2, 0⟩ :: z) t' c d =
          .ok (pre ++ ⟨t, v, 0⟩ :: z) ∧ (is ≠ [] → pre ≠ []) := by
      intro t' c d hc hd hcd
      obtain ⟨pre, v, h4, _⟩ := plateauMaxLoop_total B a n m2 is2 (⟨t, frontVal (-B) m2, 0⟩ :: z) t' c d
        hc hd (by rw [hcd]; simpa using hn)
      exact ⟨pre ++ [⟨t', v, 0⟩], frontVal (-B) m2, by rw [h4]; simp, fun _ => by simp⟩
    cases m2 with
    | nil =>
      cases is2 with
      | nil => exact ⟨[], _, rfl, fun h => by simpa using hne h⟩
      | cons i is2 => exact go _ _ _ (by simp) (by simp) rfl
    | cons p m2 =>
      cases is2 with
      | nil => exact go _ _ _ (by simp) (by simp) rfl
      | cons i is2 =>
        simp only
        split
        · exact go _ _ _ (by simp) (by simp) rfl
        · split
          · exact go _ _ _ (by simp) (by simp) rfl
          · exact go _ _ _ (by simp) (by simp) rfl

theorem pk_end (B e : ℚ) : ∀ l : List Sample, l ≠ [] → ∃ p ∈ pk B e l, p.time = e
  | [], h => absurd rfl h
  | [s], _ => ⟨⟨e, fmax (-B) (s.valueAt e)⟩, by simp [pk], rfl⟩
  | s :: s' :: l, _ => by
    obtain ⟨p, hp, he⟩ := pk_end B e (s' :: l) (by simp)
    exact ⟨p, by rw [pk]; exact List.mem_cons_of_mem _ hp, he⟩

theorem plateauMax_total (B : ℚ) {x : Signal} {a : ℚ} (hx : Hd x) (h : x.beginTime + a ≤ x.endTime) :
    ∃ z, plateauMax B x a = .ok z ∧ Hd z ∧ z.beginTime = x.beginTime ∧ z.endTime = x.endTime := by
  obtain ⟨f, l, hl, hf⟩ := hx
  unfold plateauMax
  rw [hl]
  simp only [peaksMax_eq]
  set y := (⟨f.time, f.value⟩ :: pk B x.endTime (f :: l) : List Point) with hy
  obtain ⟨p, hp, hpe⟩ := pk_end B x.endTime (f :: l) (by simp)
  obtain ⟨m, i, is, h1, h2⟩ := initMax_total (x.beginTime + a) y [] ⟨p, by simp [hy, hp], by rw [hpe]; exact h⟩
  simp only [h1, bind, Except.bind]
  obtain ⟨pre, v, h3, h4⟩ := plateauMaxLoop_total B a (2 * y.length + 2) m (i :: is) [] x.beginTime
    (decide (i.time = x.beginTime + a)) false (by simp) (by simp) (by
      have : (if (decide (i.time = x.beginTime + a) || false) then 0 else 1) ≤ 1 := by split <;> omega
      simp only [List.length_nil] at h2
      omega)
  rw [h3]
  obtain ⟨q, pre', rfl⟩ := List.exists_cons_of_ne_nil (h4 (by simp))
  simp only [List.cons_append]
  refine ⟨_, rfl, ?_, rfl, rfl⟩
  split
  · exact ⟨⟨x.beginTime, v, 0⟩, pre'.reverse, by simp, rfl⟩
  · exact ⟨⟨x.beginTime, v, 0⟩, pre'.reverse ++ [q], by simp, rfl⟩

theorem trimFront_head (s : ℚ) : ∀ (l : List Sample) (f : Sample),
    ∀ p r, (trimFront s f l).2 = p :: r → s ≤ p.time
  | [], f, p, r, h => by simp [trimFront] at h
  | q :: l, f, p, r, h => by
    unfold trimFront at h
    by_cases h0 : q.time < s
    · rw [if_pos h0] at h
      exact trimFront_head s l q p r h
    · rw [if_neg h0] at h
      simp only [List.cons.injEq] at h
      rw [← h.1]; exact not_lt.1 h0

theorem resizeFront_total {x : Signal} (s : ℚ) (hx : x.samples ≠ []) :
    ∃ p l e, resizeFront x s = .ok ⟨p :: l, x.beginTime, e⟩ ∧ p.time = s ∧
      (x.endTime ≤ e ∧ (s ≤ x.endTime → e = x.endTime)) := by
  unfold resizeFront
  by_cases h0 : s < x.beginTime
  · rw [if_pos h0]
    obtain ⟨p, l, hl⟩ := List.exists_cons_of_ne_nil hx
    rw [hl]
    exact ⟨_, _, _, rfl, rfl, le_rfl, fun _ => rfl⟩
  · rw [if_neg h0]
    have hh := trimFront_head s x.samples Sample.zero
    generalize hr : trimFront s Sample.zero x.samples = fr at hh
    obtain ⟨first, rest⟩ := fr
    cases rest with
    | nil =>
      refine ⟨_, _, _, rfl, rfl, ?_, fun h => by rw [if_neg (not_lt.2 h)]⟩
      split
      · rename_i h; exact h.le
      · exact le_rfl
    | cons p r =>
      simp only
      by_cases h1 : s < p.time
      · rw [if_pos h1]; exact ⟨_, _, _, rfl, rfl, le_rfl, fun _ => rfl⟩
      · rw [if_neg h1]
        exact ⟨_, _, _, rfl, le_antisymm (not_lt.1 h1) (hh p r rfl), le_rfl, fun _ => rfl⟩

theorem trimBack_head {t : ℚ} {p : Sample} {l : List Sample} (h : p.time ≤ t) :
    ∃ l', trimBack t (p :: l) = p :: l' ∧ ∀ q ∈ l', q ∈ l := by
  unfold trimBack
  have key : ∀ m : List Sample, ∃ m', (m ++ [p]).dropWhile (fun q => decide (t < q.time)) = m' ++ [p] ∧
      ∀ q ∈ m', q ∈ m := by
    intro m
    induction m with
    | nil => exact ⟨[], by simp [List.dropWhile_cons_of_neg, not_lt.2 h], by simp⟩
    | cons q m ih =>
      by_cases hq : t < q.time
      · obtain ⟨m', h1, h2⟩ := ih
        refine ⟨m', ?_, fun r hr => List.mem_cons_of_mem _ (h2 r hr)⟩
        rw [List.cons_append, List.dropWhile_cons_of_pos (by simpa using hq), h1]
      · exact ⟨q :: m, by rw [List.cons_append, List.dropWhile_cons_of_neg (by simpa using hq)], fun _ h => h⟩
  obtain ⟨m', h1, h2⟩ := key l.reverse
  refine ⟨m'.reverse, ?_, fun q hq => ?_⟩
  · rw [List.reverse_cons, h1]; simp
  · have := h2 q (by simpa using hq)
    simpa using this

/-- `resize` of a non-empty signal to a proper interval. -/
theorem resize_hd {x : Signal} {s t : ℚ} (v : ℚ) (hx : x.samples ≠ []) (h : s - tol ≤ t) :
    ∃ z, resize x s t v = .ok z ∧ Hd z ∧ z.beginTime = s ∧ z.endTime = if t < s then s else t := by
  unfold resize
  rw [if_neg (not_lt.2 h)]
  obtain ⟨p, l, e, h1, h2, h3, _⟩ := resizeFront_total s hx
  simp only [h1, bind, Except.bind]
  generalize ht : (if t < s then s else t) = t'
  have hst : s ≤ t' := by
    rw [← ht]; split
    · exact le_rfl
    · rename_i h; exact not_lt.1 h
  unfold resizeBack
  simp only [bind, Except.bind]
  by_cases h4 : e < t'
  · rw [if_pos h4]
    obtain ⟨b, hb⟩ : ∃ b, (p :: l).getLast? = some b := ⟨_, List.getLast?_eq_some_getLast (by simp)⟩
    rw [hb]
    by_cases h5 : b.value ≠ v ∨ b.derivative ≠ 0
    · simp only [if_pos h5]
      exact ⟨_, rfl, ⟨p, l ++ [⟨e, v, 0⟩], by simp, h2⟩, rfl, rfl⟩
    · simp only [if_neg h5]
      exact ⟨_, rfl, ⟨p, l, by simp, h2⟩, rfl, rfl⟩
  · rw [if_neg h4]
    obtain ⟨l', h5, _⟩ := trimBack_head (t := t') (l := l) (by rw [h2]; exact hst)
    simp only [h5]
    exact ⟨_, rfl, ⟨p, l', by simp, h2⟩, rfl, rfl⟩

theorem _root_.STLRom.Hd.ne {x : Signal} (h : Hd x) : x.samples ≠ [] := by
  obtain ⟨p, l, hl, _⟩ := h
  simp [hl]

theorem Hd_shift {x : Signal} (h : Hd x) (a : ℚ) : Hd (shift x a) := by
  obtain ⟨p, l, hl, hp⟩ := h
  exact ⟨⟨p.time + a, p.value, p.derivative⟩, l.map fun p => ⟨p.time + a, p.value, p.derivative⟩,
    by simp [shift, hl], by simp [shift, hp]⟩

theorem computeBoundedEventually_total (B : ℚ) {x : Signal} {a : ℚ} (hx : Hd x) (ha : 0 < a)
    (h : a < x.endTime - x.beginTime) :
    ∃ z, computeBoundedEventually B x a = .ok z ∧ Hd z ∧ z.beginTime = x.beginTime ∧
      z.endTime = x.endTime := by
  obtain ⟨z1, h1, h2, h3, h4⟩ := plateauMax_total B (a := a) hx (by linarith)
  obtain ⟨z2, k1, k2, k3, k4⟩ := resize_hd (s := x.beginTime + a) (t := x.endTime + a) (-B) hx.ne (by
    have : (0 : ℚ) < tol := by unfold tol; norm_num
    linarith)
  rw [if_neg (by linarith)] at k4
  have e1 : (shift z2 (-a)).beginTime = x.beginTime := by
    show z2.beginTime + -a = _; rw [k3]; ring
  have e2 : (shift z2 (-a)).endTime = x.endTime := by
    show z2.endTime + -a = _; rw [k4]; ring
  have fm : ∀ a : ℚ, fmax a a = a := fun a => by simp [fmax]
  have fn : ∀ a : ℚ, fmin a a = a := fun a => by simp [fmin]
  obtain ⟨z3, m1, m2, m3, m4⟩ := computeOr_total (Hd_shift k2 (-a)) h2 (by
    rw [e1, e2, h3, h4, fm, fn]; linarith)
  rw [e1, h3, fm] at m3
  rw [e2, h4, fn] at m4
  obtain ⟨z, n1, n2, n3, n4⟩ := computeOr_total hx m2 (by rw [m3, m4, fm, fn]; linarith)
  rw [m3, fm] at n3
  rw [m4, fn] at n4
  obtain ⟨w, o1, o2, o3, o4⟩ := simplify_total n2
  refine ⟨w, ?_, o2, o3.trans n3, o4.trans n4⟩
  simp only [computeBoundedEventually, h1, k1, m1, n1, o1, bind, Except.bind]

theorem computeTimedEventually_total (B : ℚ) (old : Signal) {x : Signal} {a b : ℚ} (hx : Hd x) (ha : 0 ≤ a) :
    ∃ z, computeTimedEventually B old x a b = .ok z ∧ Hd z ∧ z.beginTime = x.beginTime - a ∧
      z.endTime = x.endTime - a := by
  unfold computeTimedEventually
  rw [if_neg hx.ne]
  have hy : (if 0 < a then shift x (-a) else x) = shift x (-a) := by
    split
    · rfl
    · have : a = 0 := le_antisymm (by assumption |> not_lt.1) ha
      rw [this, neg_zero, Signal.shift_zero]
  simp only [hy]
  have hs := Hd_shift hx (-a)
  have e1 : (shift x (-a)).beginTime = x.beginTime - a := by show x.beginTime + -a = _; ring
  have e2 : (shift x (-a)).endTime = x.endTime - a := by show x.endTime + -a = _; ring
  split
  · exact ⟨_, rfl, hs, e1, e2⟩
  · rename_i h1
    split
    · obtain ⟨z, k1, k2, k3, k4⟩ := computeEventually_total B hs
      exact ⟨z, k1, k2, k3.trans e1, k4.trans e2⟩
    · rename_i h2
      obtain ⟨z, k1, k2, k3, k4⟩ := computeBoundedEventually_total B hs (not_le.1 h1) (not_le.1 h2)
      exact ⟨z, k1, k2, k3.trans e1, k4.trans e2⟩

theorem computeTimedGlobally_total (B : ℚ) (old : Signal) {x : Signal} {a b : ℚ} (hx : Hd x) (ha : 0 ≤ a) :
    ∃ z, computeTimedGlobally B old x a b = .ok z ∧ Hd z ∧ z.beginTime = x.beginTime - a ∧
      z.endTime = x.endTime - a := by
  obtain ⟨z, h1, h2, h3, h4⟩ := computeTimedEventually_total B old (b := b) (Hd_not hx) ha
  refine ⟨computeNot z, ?_, Hd_not h2, h3, h4⟩
  have := computeTimedGlobally_not B old (computeNot x) a b
  rw [computeNot_computeNot, h1] at this
  exact this

end Signal
end STLRom
