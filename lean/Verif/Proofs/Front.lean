import Verif.Proofs.UntilFirst

/-!
# The first value of what the signal operations build

The first sample of the result is right even if the lists that are combined are not in order behind
their first sample.
-/

namespace STLRom
open Signal

/-! ## Conjunction and disjunction -/

/-- Two lines that cross between `t` and `u`. -/
theorem cross_time {i j : Sample} {t u : ℚ} (h : (i.valueAt t < j.valueAt t ∧ j.valueAt u < i.valueAt u) ∨
    (j.valueAt t < i.valueAt t ∧ i.valueAt u < j.valueAt u)) :
    ∃ t', i.timeIntersect j = .ok t' ∧ min t u < t' ∧ t' < max t u ∧ i.valueAt t' = j.valueAt t' := by
  have hD : j.derivative - i.derivative ≠ 0 := by
    intro h0
    have e : j.derivative = i.derivative := by linarith
    simp only [Sample.valueAt, e] at h
    rcases h with h | h <;> nlinarith
  set D := j.derivative - i.derivative with hDd
  set t' := (i.value - j.value + (j.derivative * j.time) - (i.derivative * i.time)) / D with ht'
  have key : ∀ x, i.valueAt x - j.valueAt x = D * (t' - x) := by
    intro x
    have : D * t' = i.value - j.value + (j.derivative * j.time) - (i.derivative * i.time) := by
      rw [ht']; field_simp
    rw [mul_sub, this, hDd]
    simp only [Sample.valueAt]
    ring
  have k1 := key t
  have k2 := key u
  have k3 := key t'
  rw [sub_self, mul_zero] at k3
  refine ⟨t', by simp [Sample.timeIntersect, qdiv, hD, ← hDd, ht'], ?_, ?_, by linarith⟩
  · by_contra hc
    rw [not_lt, le_min_iff] at hc
    rcases lt_or_gt_of_ne hD with hs | hs <;> rcases h with h | h <;> nlinarith [hc.1, hc.2]
  · by_contra hc
    rw [not_lt, max_le_iff] at hc
    rcases lt_or_gt_of_ne hD with hs | hs <;> rcases h with h | h <;> nlinarith [hc.1, hc.2]

theorem andLoop_front {i j : Sample} {s : ℚ} {rest : List Sample} (hs : s ≤ i.time) (hj : j.time ≤ s) :
    ∀ (pre z : List Sample) (t : ℚ) (c : Bool), (∀ p ∈ pre, s < p.time) → s ≤ t → (c = true → s < t) →
    ∃ z' t' c' pre', segmentAndLoop i z t c (pre ++ j :: rest) = .ok (z', t', c', pre' ++ j :: rest) ∧
      (∃ a, pre = a ++ pre') ∧ (∀ p ∈ (pre' ++ j :: rest).head?, p.time ≤ i.time) ∧ s ≤ t' ∧ (c' = true → s < t') ∧
      ∀ q ∈ z', q ∈ z ∨ s < q.time
  | [], z, t, c, _, ht, hc => by
    refine ⟨z, t, c, [], ?_, ⟨[], rfl⟩, by simpa using hj.trans hs, ht, hc, fun q hq => .inl hq⟩
    simp only [List.nil_append, segmentAndLoop]
    rw [if_neg (not_lt.2 (hj.trans hs))]
  | k :: pre, z, t, c, hp, ht, hc => by
    have hk := hp k (by simp)
    have hp' : ∀ p ∈ pre, s < p.time := fun p h => hp p (by simp [h])
    by_cases h0 : i.time < k.time
    · have pend : ∀ q ∈ (if c = true then (⟨t, i.valueAt t, i.derivative⟩ : Sample) :: z else z),
          q ∈ z ∨ s < q.time := by
        intro q hq
        cases c with
        | false => exact .inl (by simpa using hq)
        | true =>
          rcases List.mem_cons.1 (by simpa using hq) with rfl | hq
          · exact .inr (hc rfl)
          · exact .inl hq
      have go : ∀ (z1 : List Sample) (c1 : Bool), (∀ q ∈ z1, q ∈ z ∨ s < q.time) →
          ∃ z' t' c' pre', segmentAndLoop i z1 k.time c1 (pre ++ j :: rest) =
              .ok (z', t', c', pre' ++ j :: rest) ∧
            (∃ a, k :: pre = a ++ pre') ∧ (∀ p ∈ (pre' ++ j :: rest).head?, p.time ≤ i.time) ∧ s ≤ t' ∧
            (c' = true → s < t') ∧ ∀ q ∈ z', q ∈ z ∨ s < q.time := by
        intro z1 c1 h1
        obtain ⟨z', t', c', pre', a1, ⟨a, a2⟩, a3, a4, a5, a6⟩ := andLoop_front hs hj pre z1 k.time c1 hp'
          hk.le (fun _ => hk)
        refine ⟨z', t', c', pre', a1, ⟨k :: a, by rw [a2]; rfl⟩, a3, a4, a5, fun q hq => ?_⟩
        rcases a6 q hq with h | h
        · exact h1 q h
        · exact .inr h
      have add : ∀ (p : Sample) (z1 : List Sample), s < p.time → (∀ q ∈ z1, q ∈ z ∨ s < q.time) →
          ∀ q ∈ p :: z1, q ∈ z ∨ s < q.time := by
        intro p z1 h1 h2 q hq
        rcases List.mem_cons.1 hq with rfl | hq
        · exact .inr h1
        · exact h2 q hq
      have triv : ∀ q ∈ z, q ∈ z ∨ s < q.time := fun q hq => .inl hq
      have hmin : ∀ t', min t k.time < t' → s < t' := fun t' h => lt_of_le_of_lt (le_min ht hk.le) h
      simp only [List.cons_append, segmentAndLoop]
      rw [if_pos h0]
      generalize (if c = true then (⟨t, i.valueAt t, i.derivative⟩ : Sample) :: z else z) = zp at pend ⊢
      split_ifs with h1 h2 h3 h4 h5
      · obtain ⟨t', e1, e2, -, -⟩ := cross_time (i := i) (j := k) (t := t) (u := k.time)
          (.inl ⟨h1, by rw [valueAt_self]; exact h2⟩)
        simp only [e1, bind, Except.bind]
        exact go _ _ (add _ _ hk (add _ _ (hmin _ e2) triv))
      · exact go _ _ triv
      · exact go _ _ (add _ _ hk pend)
      · exact go _ _ triv
      · obtain ⟨t', e1, e2, -, -⟩ := cross_time (i := i) (j := k) (t := t) (u := k.time)
          (.inr ⟨lt_of_le_of_ne (not_lt.1 h1) (Ne.symm h3), by rw [valueAt_self]; exact h5⟩)
        simp only [e1, bind, Except.bind]
        exact go _ _ (add _ _ (hmin _ e2) pend)
      · exact go _ _ (add _ _ hk pend)
    · refine ⟨z, t, c, k :: pre, ?_, ⟨[], rfl⟩, by simpa using not_lt.1 h0, ht, hc, fun q hq => .inl hq⟩
      simp only [List.cons_append, segmentAndLoop]
      rw [if_neg h0]

theorem andLast_front {i j : Sample} {s t : ℚ} {z : List Sample} {c : Bool} (hs : s ≤ i.time) (ht : s ≤ t)
    (hc : c = true → s < t) :
    ∃ p r, segmentAndLast i z t c j = .ok (p :: r) ∧ p.time = i.time ∧
      p.value = min i.value (j.valueAt i.time) ∧ ∀ q ∈ r, q ∈ z ∨ s < q.time := by
  have pend : ∀ q ∈ (if c = true then (⟨t, i.valueAt t, i.derivative⟩ : Sample) :: z else z),
      q ∈ z ∨ s < q.time := by
    intro q hq
    cases c with
    | false => exact .inl (by simpa using hq)
    | true =>
      rcases List.mem_cons.1 (by simpa using hq) with rfl | hq
      · exact .inr (hc rfl)
      · exact .inl hq
  have add : ∀ (p : Sample) (z1 : List Sample), s < p.time → (∀ q ∈ z1, q ∈ z ∨ s < q.time) →
      ∀ q ∈ p :: z1, q ∈ z ∨ s < q.time := by
    intro p z1 h1 h2 q hq
    rcases List.mem_cons.1 hq with rfl | hq
    · exact .inr h1
    · exact h2 q hq
  have triv : ∀ q ∈ z, q ∈ z ∨ s < q.time := fun q hq => .inl hq
  have hmin : ∀ t', min t i.time < t' → s < t' := fun t' h => lt_of_le_of_lt (le_min ht hs) h
  unfold segmentAndLast
  simp only
  generalize (if c = true then (⟨t, i.valueAt t, i.derivative⟩ : Sample) :: z else z) = zp at pend ⊢
  split_ifs with h1 h2 h3 h4 h5
  · obtain ⟨t', e1, e2, -, -⟩ := cross_time (i := i) (j := j) (t := t) (u := i.time)
      (.inl ⟨h1, by rw [valueAt_self]; exact h2⟩)
    simp only [e1, bind, Except.bind]
    exact ⟨_, _, rfl, rfl, (min_eq_right h2.le).symm, add _ _ (hmin _ e2) triv⟩
  · exact ⟨_, _, rfl, rfl, (min_eq_left (not_lt.1 h2)).symm, triv⟩
  · exact ⟨_, _, rfl, rfl, (min_eq_right h4.le).symm, pend⟩
  · exact ⟨_, _, rfl, rfl, (min_eq_left (not_lt.1 h4)).symm, triv⟩
  · obtain ⟨t', e1, e2, -, -⟩ := cross_time (i := i) (j := j) (t := t) (u := i.time)
      (.inr ⟨lt_of_le_of_ne (not_lt.1 h1) (Ne.symm h3), by rw [valueAt_self]; exact h5⟩)
    simp only [e1, bind, Except.bind]
    exact ⟨_, _, rfl, rfl, (min_eq_left h5.le).symm, add _ _ (hmin _ e2) pend⟩
  · exact ⟨_, _, rfl, rfl, (min_eq_right (not_lt.1 h5)).symm, pend⟩

theorem segmentAnd_front {i j : Sample} {s t : ℚ} {pre rest z : List Sample} (hs : s ≤ i.time)
    (hj : j.time ≤ s) (hp : ∀ p ∈ pre, s < p.time) (ht : s ≤ t) :
    ∃ p r pre', segmentAnd z i t (pre ++ j :: rest) = .ok (p :: r, pre' ++ j :: rest) ∧
      (∃ a, pre = a ++ pre') ∧ (∀ p ∈ (pre' ++ j :: rest).head?, p.time ≤ i.time) ∧ p.time = i.time ∧
      (i.time = s → pre' = [] ∧ p.value = min i.value (j.valueAt s)) ∧ ∀ q ∈ r, q ∈ z ∨ s < q.time := by
  obtain ⟨z', t', c', pre', a1, ⟨a, a2⟩, a3, a4, a5, a6⟩ := andLoop_front (rest := rest) hs hj pre z t false hp ht
    (by simp)
  obtain ⟨k, l, hl⟩ : ∃ k l, pre' ++ j :: rest = k :: l := by
    cases pre' with
    | nil => exact ⟨_, _, rfl⟩
    | cons k l => exact ⟨_, _, rfl⟩
  obtain ⟨p, r, b1, b2, b3, b4⟩ := andLast_front (j := k) (z := z') hs a4 a5
  refine ⟨p, r, pre', ?_, ⟨a, a2⟩, a3, b2, fun he => ?_, fun q hq => ?_⟩
  · simp only [segmentAnd, a1, bind, Except.bind, hl, b1]
  · have hp' : pre' = [] := by
      cases pre' with
      | nil => rfl
      | cons q l' =>
        exfalso
        have h1 := a3 q (by simp)
        have h2 := hp q (by rw [a2]; simp)
        linarith
    refine ⟨hp', ?_⟩
    rw [hp'] at hl
    obtain rfl := (List.cons.inj hl).1
    rw [b3, he]
  · rcases b4 q hq with h | h
    · exact a6 q h
    · exact .inr h

/-- A list, latest sample first, whose first sample at or before `s` has the value `v` at `s`. -/
def RAt (s v : ℚ) (l : List Sample) : Prop :=
  ∃ pre j rest, l = pre ++ j :: rest ∧ (∀ p ∈ pre, s < p.time) ∧ j.time ≤ s ∧ j.valueAt s = v

theorem partialAnd_front {s w : ℚ} {i : Sample} {rest : List Sample} (hi : i.time ≤ s) :
    ∀ (pre z js : List Sample) (t : ℚ), (∀ p ∈ pre, s < p.time) → RAt s w js → s ≤ t →
    ∃ p r, partialAnd s z (pre ++ i :: rest) js t = .ok (p :: r) ∧ p.time = s ∧
      p.value = min (i.valueAt s) w ∧ ∀ q ∈ r, q ∈ z ∨ s < q.time
  | [], z, js, t, _, ⟨pre, j, rest', hl, h1, h2, h3⟩, ht => by
    subst hl
    simp only [List.nil_append, partialAnd]
    rw [if_neg (not_lt.2 hi)]
    by_cases he : i.time = s
    · rw [if_pos he]
      obtain ⟨p, r, pre', a1, -, -, a4, a5, a6⟩ := segmentAnd_front (i := i) (j := j) (z := z)
        (rest := rest') he.ge h2 h1 ht
      simp only [a1, bind, Except.bind]
      refine ⟨p, r, rfl, a4.trans he, ?_, a6⟩
      rw [(a5 he).2, ← he, valueAt_self, he, h3]
    · rw [if_neg he]
      obtain ⟨p, r, pre', a1, -, -, a4, a5, a6⟩ := segmentAnd_front (i := ⟨s, i.valueAt s, i.derivative⟩)
        (j := j) (z := z) (rest := rest') le_rfl h2 h1 ht
      simp only [a1, bind, Except.bind]
      refine ⟨p, r, rfl, a4, ?_, a6⟩
      rw [(a5 rfl).2, h3]
  | k :: pre, z, js, t, hp, ⟨pre1, j, rest', hl, h1, h2, h3⟩, ht => by
    subst hl
    have hk := hp k (by simp)
    simp only [List.cons_append, partialAnd]
    rw [if_pos hk]
    obtain ⟨p, r, pre', a1, ⟨a, a2⟩, -, a4, -, a6⟩ := segmentAnd_front (i := k) (j := j) (z := z)
      (rest := rest') hk.le h2 h1 ht
    simp only [a1, bind, Except.bind]
    have h1' : ∀ q ∈ pre', s < q.time := fun q hq => h1 q (by rw [a2]; simp [hq])
    have fin : ∀ js', RAt s w js' → ∃ p' r', partialAnd s (p :: r) (pre ++ i :: rest) js' k.time =
        .ok (p' :: r') ∧ p'.time = s ∧ p'.value = min (i.valueAt s) w ∧ ∀ q ∈ r', q ∈ z ∨ s < q.time := by
      intro js' hjs
      obtain ⟨p', r', b1, b2, b3, b4⟩ := partialAnd_front hi pre (p :: r) js' k.time
        (fun q hq => hp q (by simp [hq])) hjs hk.le
      refine ⟨p', r', b1, b2, b3, fun q hq => ?_⟩
      rcases b4 q hq with h | h
      · rcases List.mem_cons.1 h with rfl | h
        · exact .inr (by rw [a4]; exact hk)
        · exact a6 q h
      · exact .inr h
    cases pre' with
    | nil =>
      simp only [List.nil_append]
      rw [if_neg (by linarith)]
      exact fin _ ⟨[], j, rest', rfl, by simp, h2, h3⟩
    | cons q pre' =>
      simp only [List.cons_append]
      split_ifs
      · exact fin _ ⟨pre', j, rest', rfl, fun x hx => h1' x (by simp [hx]), h2, h3⟩
      · exact fin _ ⟨q :: pre', j, rest', rfl, h1', h2, h3⟩

theorem RAt.neg {s v : ℚ} {l : List Sample} (h : RAt s v l) : RAt s (-v) (negs l) := by
  obtain ⟨pre, j, rest, rfl, h1, h2, h3⟩ := h
  refine ⟨negs pre, j.neg, negs rest, by simp, ?_, by simpa using h2, by simp [h3]⟩
  intro p hp
  obtain ⟨q, hq, rfl⟩ := List.mem_map.1 hp
  simpa using h1 q hq

theorem partialOr_front {s v w t : ℚ} {z is js : List Sample} (hi : RAt s v is) (hj : RAt s w js)
    (ht : s ≤ t) :
    ∃ p r, partialOr s z is js t = .ok (p :: r) ∧ p.time = s ∧
      p.value = max v w ∧ ∀ q ∈ r, q ∈ z ∨ s < q.time := by
  obtain ⟨pre, i, rest, rfl, h1, h2, rfl⟩ := hi
  obtain ⟨p, r, a1, a2, a3, a4⟩ := partialAnd_front (i := i.neg) (rest := negs rest) (by simpa using h2)
    (negs pre) (negs z) (negs js) t
    (by
      intro p hp
      obtain ⟨q, hq, rfl⟩ := List.mem_map.1 hp
      simpa using h1 q hq) hj.neg ht
  have e := partialAnd_neg s (pre ++ i :: rest) z js t
  rw [show negs (pre ++ i :: rest) = negs pre ++ i.neg :: negs rest by simp [negs], a1] at e
  cases hor : partialOr s z (pre ++ i :: rest) js t with
  | error f => rw [hor] at e; simp [Except.map] at e
  | ok l =>
    rw [hor] at e
    simp only [Except.map, Except.ok.injEq] at e
    have e' : l = negs (p :: r) := by rw [e, negs_negs]
    refine ⟨p.neg, negs r, by rw [e']; rfl, by simpa using a2, ?_, fun q hq => ?_⟩
    · rw [Sample.neg_value, a3, Sample.neg_valueAt, ← max_neg_neg, neg_neg, neg_neg]
    · obtain ⟨q', hq', rfl⟩ := List.mem_map.1 hq
      rcases a4 q' hq' with h | h
      · obtain ⟨q'', hq'', rfl⟩ := List.mem_map.1 h
        exact .inl (by simpa using hq'')
      · exact .inr (by simpa using h)

theorem segmentOr_front {i j : Sample} {s t : ℚ} {pre rest z : List Sample} (hs : i.time = s)
    (hj : j.time ≤ s) (hp : ∀ p ∈ pre, s < p.time) (ht : s ≤ t) :
    ∃ p r, segmentOr z i t (pre ++ j :: rest) = .ok (p :: r, j :: rest) ∧ p.time = s ∧
      p.value = max i.value (j.valueAt s) ∧ ∀ q ∈ r, q ∈ z ∨ s < q.time := by
  obtain ⟨p, r, pre', a1, -, -, a2, a3, a4⟩ := segmentAnd_front (i := i.neg) (j := j.neg) (s := s) (t := t)
    (pre := negs pre) (rest := negs rest) (z := negs z) (by simpa using hs.ge) (by simpa using hj)
    (by
      intro p hp'
      obtain ⟨q, hq, rfl⟩ := List.mem_map.1 hp'
      simpa using hp q hq) ht
  obtain ⟨hnil, a5⟩ := a3 (by simpa using hs)
  subst hnil
  have e := segmentAnd_neg i z (pre ++ j :: rest) t
  rw [show negs (pre ++ j :: rest) = negs pre ++ j.neg :: negs rest by simp [negs], a1] at e
  cases hor : segmentOr z i t (pre ++ j :: rest) with
  | error f => rw [hor] at e; simp [Except.map] at e
  | ok l =>
    obtain ⟨l1, l2⟩ := l
    rw [hor] at e
    simp only [Except.map, Except.ok.injEq, Prod.mk.injEq, List.nil_append] at e
    have e1 : l1 = negs (p :: r) := by rw [e.1, negs_negs]
    have e2 : l2 = j :: rest := by
      have := congrArg negs e.2
      rw [negs_negs] at this
      rw [← this, show j.neg :: negs rest = negs (j :: rest) from rfl, negs_negs]
    refine ⟨p.neg, negs r, by rw [e1, e2]; rfl, by simpa [hs] using a2, ?_, fun q hq => ?_⟩
    · rw [Sample.neg_value, a5, Sample.neg_valueAt, Sample.neg_value, ← max_neg_neg, neg_neg, neg_neg]
    · obtain ⟨q', hq', rfl⟩ := List.mem_map.1 hq
      rcases a4 q' hq' with h | h
      · obtain ⟨q'', hq'', rfl⟩ := List.mem_map.1 h
        exact .inl (by simpa using hq'')
      · exact .inr (by simpa using h)

end STLRom
