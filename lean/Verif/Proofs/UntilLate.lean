import Verif.Proofs.UntilFront

/-!
# Formulas with `until` outside temporal operators at later times

`compute_robustness` of `until` extends its signal back to time 0, with the first value.
-/

namespace STLRom
open Signal

/-- Samples, earliest first: constant `v` from 0 to `t`, then samples after `t`. -/
def Flat0 (t v : ℚ) (l : List Sample) : Prop :=
  ∃ o hi, l = ⟨0, v, 0⟩ :: (o ++ hi) ∧ (o = [] ∨ ∃ d, o = [⟨t, v, d⟩]) ∧ ∀ q ∈ hi, t < q.time

/-- A signal that is constant up to `t`. -/
def Back0 (x : Signal) (t v : ℚ) : Prop := x.beginTime = 0 ∧ t < x.endTime ∧ Flat0 t v x.samples

/-- A signal with the value `v` at `t`, which begins at `t` or is constant before. -/
def Led (x : Signal) (t v : ℚ) : Prop := Lead x t v ∨ (0 < t ∧ Back0 x t v)

theorem Lead.ext {x : Signal} {t v e : ℚ} (h : Lead x t v) (he : x.endTime ≤ e) :
    Lead { x with endTime := e } t v := ⟨h.1, h.2.1.trans he, h.2.2⟩

theorem Led.front {x : Signal} {t v : ℚ} (h : Led x t v) : ∃ p, x.front = .ok p ∧ p.value = v := by
  rcases h with h | ⟨_, _, _, o, hi, h, _⟩
  · exact h.front
  · exact ⟨⟨0, v, 0⟩, by simp only [Signal.front, h], rfl⟩

theorem Led.ext {x : Signal} {t v e : ℚ} (h : Led x t v) (he : x.endTime ≤ e) :
    Led { x with endTime := e } t v := by
  rcases h with h | ⟨h0, h1, h2, h3⟩
  · exact .inl (h.ext he)
  · exact .inr ⟨h0, h1, h2.trans_le he, h3⟩

theorem Led.not {x : Signal} {t v : ℚ} (h : Led x t v) : Led (computeNot x) t (-v) := by
  rcases h with h | ⟨h0, h1, h2, o, hi, h3, h4, h5⟩
  · exact .inl h.not
  · refine .inr ⟨h0, h1, h2, negs o, negs hi, ?_, ?_, fun q hq => ?_⟩
    · rw [computeNot_samples, h3]
      simp [negs, Sample.neg]
    · rcases h4 with rfl | ⟨d, rfl⟩
      · exact .inl rfl
      · exact .inr ⟨-d, rfl⟩
    · obtain ⟨q', hq', rfl⟩ := List.mem_map.1 hq
      simpa using h5 q' hq'

/-- Latest sample first: what remains of `Flat0` after some samples past `t` are skipped. -/
def Low0 (t v : ℚ) (l : List Sample) : Prop :=
  ∃ pre o, l = pre ++ (o ++ [⟨0, v, 0⟩]) ∧ (o = [] ∨ ∃ d, o = [⟨t, v, d⟩]) ∧ ∀ q ∈ pre, t < q.time

theorem Low0.rAt {t v : ℚ} {l : List Sample} (h0 : 0 < t) (h : Low0 t v l) : RAt t v l := by
  obtain ⟨pre, o, rfl, h1, h2⟩ := h
  rcases h1 with rfl | ⟨d, rfl⟩
  · exact ⟨pre, ⟨0, v, 0⟩, [], rfl, h2, h0.le, by simp [Sample.valueAt]⟩
  · exact ⟨pre, ⟨t, v, d⟩, [⟨0, v, 0⟩], rfl, h2, le_rfl, by simp [Sample.valueAt]⟩

theorem Back0.low {x : Signal} {t v : ℚ} (h : Back0 x t v) : Low0 t v x.samples.reverse := by
  obtain ⟨_, _, o, hi, h3, h4, h5⟩ := h
  refine ⟨hi.reverse, o, ?_, h4, by simpa using h5⟩
  rw [h3]
  rcases h4 with rfl | ⟨d, rfl⟩ <;> simp

theorem Low0.skip {t v e : ℚ} (h0 : 0 < t) (he : t < e) : ∀ {l : List Sample}, Low0 t v l →
    ∃ l', skipGuarded e l = .ok l' ∧ Low0 t v l'
  | [], ⟨pre, o, h, _⟩ => by simp at h
  | [p], h => ⟨[p], rfl, h⟩
  | p :: q :: l, ⟨pre, o, h, h1, h2⟩ => by
    unfold skipGuarded
    split_ifs with hp
    · cases pre with
      | nil =>
        exfalso
        rcases h1 with rfl | ⟨d, rfl⟩
        · simp at h
        · simp only [List.nil_append, List.singleton_append, List.cons.injEq] at h
          rw [h.1] at hp
          exact absurd hp (not_le.2 he)
      | cons k pre =>
        obtain ⟨-, h'⟩ := List.cons.inj h
        exact Low0.skip h0 he ⟨pre, o, h', h1, fun q hq => h2 q (by simp [hq])⟩
    · exact ⟨_, rfl, pre, o, h, h1, h2⟩

/-- After skipping, also from `t` on, the value at `t` is still `v`. -/
theorem Low0.skip_rAt {t v e : ℚ} (h0 : 0 < t) (he : t ≤ e) : ∀ {l : List Sample}, Low0 t v l →
    ∃ l', skipGuarded e l = .ok l' ∧ RAt t v l'
  | [], ⟨pre, o, h, _⟩ => by simp at h
  | [p], h => ⟨[p], rfl, h.rAt h0⟩
  | p :: q :: l, ⟨pre, o, h, h1, h2⟩ => by
    unfold skipGuarded
    split_ifs with hp
    · cases pre with
      | nil =>
        rcases h1 with rfl | ⟨d, rfl⟩
        · simp at h
        · simp only [List.nil_append, List.singleton_append, List.cons.injEq] at h
          obtain ⟨-, rfl, rfl⟩ := h
          exact Low0.skip_rAt h0 he ⟨[], [], rfl, .inl rfl, by simp⟩
      | cons k pre =>
        obtain ⟨-, h'⟩ := List.cons.inj h
        exact Low0.skip_rAt h0 he ⟨pre, o, h', h1, fun q hq => h2 q (by simp [hq])⟩
    · exact ⟨_, rfl, Low0.rAt h0 ⟨pre, o, h, h1, h2⟩⟩

/-! ## Conjunction of two extended signals -/

/-- The loop passes the samples after `t`. -/
theorem andLoop_past {i : Sample} {s : ℚ} {low : List Sample} (hs : i.time < s) :
    ∀ (pre z : List Sample) (t : ℚ) (c : Bool), (∀ p ∈ pre, s < p.time) → s < t → (∀ q ∈ z, s < q.time) →
    ∃ z' t' c', segmentAndLoop i z t c (pre ++ low) = segmentAndLoop i z' t' c' low ∧ s < t' ∧
      ∀ q ∈ z', s < q.time
  | [], z, t, c, _, ht, hz => ⟨z, t, c, rfl, ht, hz⟩
  | k :: pre, z, t, c, hp, ht, hz => by
    have hk := hp k (by simp)
    have hp' : ∀ p ∈ pre, s < p.time := fun p h => hp p (by simp [h])
    have pend : ∀ q ∈ (if c = true then (⟨t, i.valueAt t, i.derivative⟩ : Sample) :: z else z), s < q.time := by
      intro q hq
      cases c with
      | false => exact hz q (by simpa using hq)
      | true =>
        rcases List.mem_cons.1 (by simpa using hq) with rfl | hq
        · exact ht
        · exact hz q hq
    have add : ∀ (p : Sample) (z1 : List Sample), s < p.time → (∀ q ∈ z1, s < q.time) →
        ∀ q ∈ p :: z1, s < q.time := by
      intro p z1 h1 h2 q hq
      rcases List.mem_cons.1 hq with rfl | hq
      · exact h1
      · exact h2 q hq
    have hmin : ∀ t', min t k.time < t' → s < t' := fun t' h => lt_trans (lt_min ht hk) h
    have go : ∀ (z1 : List Sample) (c1 : Bool), (∀ q ∈ z1, s < q.time) →
        ∃ z' t' c', segmentAndLoop i z1 k.time c1 (pre ++ low) = segmentAndLoop i z' t' c' low ∧ s < t' ∧
          ∀ q ∈ z', s < q.time := fun z1 c1 h => andLoop_past hs pre z1 k.time c1 hp' hk h
    simp only [List.cons_append, segmentAndLoop]
    rw [if_pos (hs.trans hk)]
    generalize (if c = true then (⟨t, i.valueAt t, i.derivative⟩ : Sample) :: z else z) = zp at pend ⊢
    split_ifs with h1 h2 h3 h4 h5
    · obtain ⟨t', e1, e2, -, -⟩ := cross_time (i := i) (j := k) (t := t) (u := k.time)
        (.inl ⟨h1, by rw [valueAt_self]; exact h2⟩)
      simp only [e1, bind, Except.bind]
      exact go _ _ (add _ _ hk (add _ _ (hmin _ e2) hz))
    · exact go _ _ hz
    · exact go _ _ (add _ _ hk pend)
    · exact go _ _ hz
    · obtain ⟨t', e1, e2, -, -⟩ := cross_time (i := i) (j := k) (t := t) (u := k.time)
        (.inr ⟨lt_of_le_of_ne (not_lt.1 h1) (Ne.symm h3), by rw [valueAt_self]; exact h5⟩)
      simp only [e1, bind, Except.bind]
      exact go _ _ (add _ _ (hmin _ e2) pend)
    · exact go _ _ (add _ _ hk pend)

/-- The samples of the first operand after `t`. -/
theorem partialAnd_past {t : ℚ} (h0 : 0 < t) {j : Sample} {rest low : List Sample} (hj : j.time ≤ t) :
    ∀ (pre z pre1 : List Sample) (τ : ℚ), (∀ p ∈ pre, t < p.time) → (∀ p ∈ pre1, t < p.time) →
    (∀ q ∈ z, t < q.time) → t < τ →
    ∃ z' pre' τ', partialAnd 0 z (pre ++ low) (pre1 ++ j :: rest) τ =
        partialAnd 0 z' low (pre' ++ j :: rest) τ' ∧ (∀ p ∈ pre', t < p.time) ∧ (∀ q ∈ z', t < q.time) ∧ t < τ'
  | [], z, pre1, τ, _, h1, h2, h3 => ⟨z, pre1, τ, rfl, h1, h2, h3⟩
  | k :: pre, z, pre1, τ, hp, h1, h2, h3 => by
    have hk := hp k (by simp)
    have hp' : ∀ p ∈ pre, t < p.time := fun p h => hp p (by simp [h])
    obtain ⟨p, r, pre', a1, ⟨a, a2⟩, -, a4, -, a6⟩ := segmentAnd_front (i := k) (j := j) (z := z)
      (rest := rest) hk.le hj h1 h3.le
    have hz : ∀ q ∈ p :: r, t < q.time := by
      intro q hq
      rcases List.mem_cons.1 hq with rfl | hq
      · rw [a4]; exact hk
      · rcases a6 q hq with h | h
        · exact h2 q h
        · exact h
    have h1' : ∀ q ∈ pre', t < q.time := fun q hq => h1 q (by rw [a2]; simp [hq])
    simp only [List.cons_append, partialAnd]
    rw [if_pos (h0.trans hk)]
    simp only [a1, bind, Except.bind]
    cases pre' with
    | nil =>
      simp only [List.nil_append]
      rw [if_neg (by linarith)]
      exact partialAnd_past h0 hj pre (p :: r) [] k.time hp' (by simp) hz hk
    | cons q pre' =>
      simp only [List.cons_append]
      split_ifs
      · exact partialAnd_past h0 hj pre (p :: r) pre' k.time hp' (fun x hx => h1' x (by simp [hx])) hz hk
      · exact partialAnd_past h0 hj pre (p :: r) (q :: pre') k.time hp' h1' hz hk

/-- The last step, at time 0. -/
theorem andLast_zero (v w τ : ℚ) (z : List Sample) (c : Bool) :
    segmentAndLast ⟨0, v, 0⟩ z τ c ⟨0, w, 0⟩ =
      .ok (⟨0, min v w, 0⟩ :: if w < v ∧ c = true then (⟨τ, v, 0⟩ : Sample) :: z else z) := by
  have e : ∀ x u : ℚ, (⟨0, x, 0⟩ : Sample).valueAt u = x := fun x u => by simp [Sample.valueAt]
  unfold segmentAndLast
  simp only [e]
  rcases lt_trichotomy v w with h | h | h
  · rw [if_pos h, if_neg (not_lt.2 h.le), if_neg (fun h' => absurd h'.1 (not_lt.2 h.le)), min_eq_left h.le]
  · rw [if_neg (not_lt.2 h.ge), if_pos h, if_neg (not_lt.2 h.le), if_neg (fun h' => absurd h'.1 (not_lt.2 h.le)),
      min_eq_left h.le]
  · rw [if_neg (not_lt.2 h.le), if_neg h.ne', if_neg (not_lt.2 h.le), min_eq_right h.le]
    simp [h]

theorem partialAnd_low {t v w τ : ℚ} (h0 : 0 < t) {oi oj pre z : List Sample}
    (hi : oi = [] ∨ ∃ d, oi = [⟨t, v, d⟩]) (hj : oj = [] ∨ ∃ d, oj = [⟨t, w, d⟩])
    (hp : ∀ p ∈ pre, t < p.time) (hz : ∀ q ∈ z, t < q.time) (hτ : t < τ) :
    ∃ l, partialAnd 0 z (oi ++ [⟨0, v, 0⟩]) (pre ++ (oj ++ [⟨0, w, 0⟩])) τ = .ok l ∧ Flat0 t (min v w) l := by
  have e : ∀ x u : ℚ, (⟨0, x, 0⟩ : Sample).valueAt u = x := fun x u => by simp [Sample.valueAt]
  rcases hi with rfl | ⟨d, rfl⟩
  · simp only [List.nil_append, partialAnd, lt_irrefl, if_false, if_true]
    obtain ⟨z', t', c', a1, a2, a3⟩ := andLoop_past (i := ⟨0, v, 0⟩) (s := t) (low := oj ++ [⟨0, w, 0⟩]) h0 pre z τ
      false hp hτ hz
    simp only [segmentAnd, a1]
    have pend : ∀ q ∈ (if c' = true then (⟨t', v, 0⟩ : Sample) :: z' else z'), t < q.time := by
      intro q hq
      cases c' with
      | false => exact a3 q (by simpa using hq)
      | true =>
        rcases List.mem_cons.1 (by simpa using hq) with rfl | hq
        · exact a2
        · exact a3 q hq
    rcases hj with rfl | ⟨d, rfl⟩
    · simp only [List.nil_append, segmentAndLoop, lt_irrefl, if_false, bind, Except.bind, andLast_zero]
      refine ⟨_, rfl, [], if w < v ∧ c' = true then (⟨t', v, 0⟩ : Sample) :: z' else z', rfl, .inl rfl,
        fun q hq => ?_⟩
      split_ifs at hq with h
      · rcases List.mem_cons.1 hq with rfl | hq
        · exact a2
        · exact a3 q hq
      · exact a3 q hq
    · -- the sample of the second operand at `t`
      have last : ∀ (z1 : List Sample) (c1 : Bool), (∀ q ∈ z1, t < q.time) → v ≤ w →
          ∃ l, (do let (z, t, continued, js) ← segmentAndLoop ⟨0, v, 0⟩ z1 t c1 [⟨0, w, 0⟩]
                   match js with
                    | [] => .error .ub
                    | j :: js' => do
                      let z ← segmentAndLast ⟨0, v, 0⟩ z t continued j
                      .ok (z, j :: js') : M (List Sample × List Sample)) = .ok (l, [⟨0, w, 0⟩]) ∧
            Flat0 t (min v w) l := by
        intro z1 c1 h1 h2
        simp only [segmentAndLoop, lt_irrefl, if_false, bind, Except.bind, andLast_zero]
        rw [if_neg (fun h => absurd h.1 (not_lt.2 h2))]
        exact ⟨_, rfl, [], z1, rfl, .inl rfl, h1⟩
      have last' : ∀ (z1 : List Sample), (∀ q ∈ z1, t < q.time) → w ≤ v →
          ∃ l, (do let (z, t, continued, js) ← segmentAndLoop ⟨0, v, 0⟩ (⟨t, w, d⟩ :: z1) t false [⟨0, w, 0⟩]
                   match js with
                    | [] => .error .ub
                    | j :: js' => do
                      let z ← segmentAndLast ⟨0, v, 0⟩ z t continued j
                      .ok (z, j :: js') : M (List Sample × List Sample)) = .ok (l, [⟨0, w, 0⟩]) ∧
            Flat0 t (min v w) l := by
        intro z1 h1 h2
        simp only [segmentAndLoop, lt_irrefl, if_false, bind, Except.bind, andLast_zero]
        refine ⟨_, rfl, [⟨t, w, d⟩], z1, ?_, .inr ⟨d, by rw [min_eq_right h2]⟩, h1⟩
        simp
      have fin : ∀ {x : M (List Sample × List Sample)}, (∃ l, x = .ok (l, [⟨0, w, 0⟩]) ∧ Flat0 t (min v w) l) →
          ∃ l, (do let (z, _) ← x
                   .ok z : M (List Sample)) = .ok l ∧ Flat0 t (min v w) l := by
        rintro x ⟨l, rfl, h⟩
        exact ⟨l, rfl, h⟩
      apply fin
      have hmin : ∀ u, min t' t < u → t < u := fun u h => lt_of_le_of_lt (le_min a2.le le_rfl) h
      have add : ∀ (p : Sample) (z1 : List Sample), t < p.time → (∀ q ∈ z1, t < q.time) →
          ∀ q ∈ p :: z1, t < q.time := by
        intro p z1 h1 h2 q hq
        rcases List.mem_cons.1 hq with rfl | hq
        · exact h1
        · exact h2 q hq
      simp only [List.singleton_append]
      rw [segmentAndLoop.eq_def]
      simp only [h0, if_true, e]
      generalize (if c' = true then (⟨t', v, 0⟩ : Sample) :: z' else z') = zp at pend ⊢
      split_ifs with h1 h2 h3 h4 h5
      · obtain ⟨u, e1, e2, -, -⟩ := cross_time (i := ⟨0, v, 0⟩) (j := ⟨t, w, d⟩) (t := t') (u := t)
          (.inl ⟨by rw [e]; exact h1, by rw [e, show (⟨t, w, d⟩ : Sample).valueAt t = w from valueAt_self ⟨t, w, d⟩]; exact h2⟩)
        rw [e1]
        exact last' _ (add _ _ (hmin _ e2) a3) h2.le
      · exact last _ _ a3 (not_lt.1 h2)
      · exact last' _ pend h4.le
      · exact last _ _ a3 (not_lt.1 h4)
      · obtain ⟨u, e1, e2, -, -⟩ := cross_time (i := ⟨0, v, 0⟩) (j := ⟨t, w, d⟩) (t := t') (u := t)
          (.inr ⟨by rw [e]; exact lt_of_le_of_ne (not_lt.1 h1) (Ne.symm h3), by rw [e, show (⟨t, w, d⟩ : Sample).valueAt t = w from valueAt_self ⟨t, w, d⟩]; exact h5⟩)
        rw [e1]
        exact last _ _ (add _ _ (hmin _ e2) pend) h5.le
      · exact last' _ pend (not_lt.1 h5)
  · obtain ⟨j, rest, hjr, hjt, hjv, hnext⟩ : ∃ j rest, oj ++ [⟨0, w, 0⟩] = j :: rest ∧ j.time ≤ t ∧ j.valueAt t = w ∧
        (if j.time = t then rest else j :: rest) = [⟨0, w, 0⟩] := by
      rcases hj with rfl | ⟨d', rfl⟩
      · exact ⟨_, _, rfl, h0.le, e w t, by simp [h0.ne]⟩
      · exact ⟨_, _, rfl, le_rfl, valueAt_self ⟨t, w, d'⟩, by simp⟩
    rw [hjr]
    obtain ⟨p, r, pre', a1, -, -, a4, a5, a6⟩ := segmentAnd_front (i := ⟨t, v, d⟩) (j := j) (z := z)
      (rest := rest) (s := t) le_rfl hjt hp hτ.le
    obtain ⟨rfl, a7⟩ := a5 rfl
    simp only [List.singleton_append]
    rw [partialAnd.eq_def]
    simp only [h0, if_true, a1, bind, Except.bind, List.nil_append, hnext]
    simp only [partialAnd, lt_irrefl, if_false, if_true, segmentAnd, segmentAndLoop, bind, Except.bind, andLast_zero]
    refine ⟨_, rfl, [p], r, ?_, .inr ⟨p.derivative, ?_⟩, fun q hq => ?_⟩
    · simp
    · have e1 : p.time = t := a4
      have e2 : p.value = min v w := by rw [a7, hjv]
      cases p
      simp only at e1 e2
      rw [e1, e2]
    · rcases a6 q hq with h | h
      · exact hz q h
      · exact h

theorem simplifyLoop_part {b : ℚ} {p : Sample} (hp : p.time = b) : ∀ (r acc : List Sample) (n : ℕ), r.length ≤ n →
    (∀ q ∈ r, b < q.time) → ∃ sub, simplifyLoop b n (r ++ p :: acc) = .ok (p :: (acc ++ sub)) ∧ ∀ q ∈ sub, q ∈ r
  | [], acc, n, _, _ => by
    refine ⟨[], ?_, fun q hq => by simp at hq⟩
    cases n <;> simp [simplifyLoop, hp]
  | f :: r, acc, 0, h, _ => by simp at h
  | f :: r, acc, n + 1, h, hr => by
    have hf := hr f (by simp)
    have hr' : ∀ q ∈ r, b < q.time := fun q hq => hr q (by simp [hq])
    have hn : r.length ≤ n := by simpa using h
    obtain ⟨l, hl⟩ : ∃ l, (f :: (r ++ p :: acc)).getLast? = some l := by
      rw [← Option.isSome_iff_exists]; simp
    simp only [List.cons_append, simplifyLoop, if_neg hf.ne', hl]
    split_ifs with h0
    · obtain ⟨sub, a1, a2⟩ := simplifyLoop_part hp r (acc ++ [f]) n hn hr'
      refine ⟨f :: sub, by rw [show r ++ p :: acc ++ [f] = r ++ p :: (acc ++ [f]) by simp, a1]; simp, fun q hq => ?_⟩
      rcases List.mem_cons.1 hq with rfl | hq
      · simp
      · simp [a2 q hq]
    · obtain ⟨sub, a1, a2⟩ := simplifyLoop_part hp r acc n hn hr'
      exact ⟨sub, a1, fun q hq => by simp [a2 q hq]⟩

theorem simplify_ext {t v e : ℚ} (h0 : 0 < t) (he : t < e) {l : List Sample} (h : Flat0 t v l) :
    ∃ z, simplify ⟨l, 0, e⟩ = .ok z ∧ z.endTime = e ∧ Back0 z t v := by
  obtain ⟨o, hi, rfl, h1, h2⟩ := h
  have h2' : ∀ q ∈ hi, 0 < q.time := fun q hq => h0.trans (h2 q hq)
  have key : ∃ o' hi', simplifyLoop 0 ((o ++ hi).length + 1) ((o ++ hi) ++ [⟨0, v, 0⟩]) =
      .ok (⟨0, v, 0⟩ :: (o' ++ hi')) ∧ (o' = [] ∨ ∃ d, o' = [⟨t, v, d⟩]) ∧ ∀ q ∈ hi', t < q.time := by
    rcases h1 with rfl | ⟨d, rfl⟩
    · obtain ⟨sub, a1, a2⟩ := simplifyLoop_part (p := ⟨0, v, 0⟩) rfl hi [] (hi.length + 1) (by omega) h2'
      exact ⟨[], sub, a1, .inl rfl, fun q hq => h2 q (a2 q hq)⟩
    · obtain ⟨x, hx⟩ : ∃ x, (⟨t, v, d⟩ :: (hi ++ [⟨0, v, 0⟩]) : List Sample).getLast? = some x := by
        rw [← Option.isSome_iff_exists]; simp
      simp only [List.cons_append, List.nil_append, List.length_cons, simplifyLoop, if_neg h0.ne', hx]
      split_ifs with hd
      · obtain ⟨sub, a1, a2⟩ := simplifyLoop_part (p := ⟨0, v, 0⟩) rfl hi [⟨t, v, d⟩] (hi.length + 1) (by omega) h2'
        exact ⟨[⟨t, v, d⟩], sub, by rw [← a1]; simp, .inr ⟨d, rfl⟩, fun q hq => h2 q (a2 q hq)⟩
      · obtain ⟨sub, a1, a2⟩ := simplifyLoop_part (p := ⟨0, v, 0⟩) rfl hi [] (hi.length + 1) (by omega) h2'
        exact ⟨[], sub, a1, .inl rfl, fun q hq => h2 q (a2 q hq)⟩
  obtain ⟨o', hi', k1, k2, k3⟩ := key
  obtain ⟨x, hx⟩ : ∃ x, (⟨0, v, 0⟩ :: (o' ++ hi') : List Sample).getLast? = some x := by
    rw [← Option.isSome_iff_exists]; simp
  simp only [simplify, k1, bind, Except.bind, hx]
  split_ifs
  · refine ⟨_, rfl, rfl, rfl, he, o', hi' ++ [⟨e, x.valueAt e, 0⟩], by simp, k2, fun q hq => ?_⟩
    rcases List.mem_append.1 hq with h | h
    · exact k3 q h
    · rw [List.mem_singleton.1 h]; exact he
  · exact ⟨_, rfl, rfl, rfl, he, o', hi', rfl, k2, k3⟩

/-- `compute_and` of signals with known values at `t`. -/
theorem computeAndM_led {x y : Signal} {t v w : ℚ} (hx : Led x t v) (hy : Led y t w) :
    ∃ z, computeAndM x y = .ok z ∧ Led z t (min v w) := by
  have one : ∀ {is js : List Sample}, t ≤ min x.endTime y.endTime → max x.beginTime y.beginTime = t →
      skipGuarded (min x.endTime y.endTime) x.samples.reverse = .ok is →
      skipGuarded (min x.endTime y.endTime) y.samples.reverse = .ok js → RAt t v is → RAt t w js →
      ∃ z, computeAndM x y = .ok z ∧ Led z t (min v w) := by
    rintro is js hbe hb a1 b1 ⟨pre, i, rest, a3, a4, a5, a6⟩ b3
    obtain ⟨p, r, c1, c2, c3, c4⟩ := partialAnd_front (rest := rest) a5 pre [] js _ a4 b3 hbe
    obtain ⟨z, d1, d2, d3⟩ := simplify_front (x := ⟨p :: r, t, min x.endTime y.endTime⟩) (b := t) (v := min v w)
      ⟨rfl, p, r, rfl, c2, by rw [c3, a6], fun q hq => (c4 q hq).resolve_left (by simp)⟩
    refine ⟨z, ?_, .inl (d3.lead (by rw [d2]; exact hbe))⟩
    unfold computeAndM
    simp only [fmax_eq, fmin_eq, hb, a1, b1, bind, Except.bind, a3, c1, d1]
  rcases hx with hx | ⟨h0, hx⟩ <;> rcases hy with hy | ⟨h0, hy⟩
  · obtain ⟨z, h1, h2, -⟩ := computeAndM_front hx hy
    exact ⟨z, h1, .inl h2⟩
  · obtain ⟨is, a1, a2⟩ := hx.skip (min x.endTime y.endTime)
    have he : t ≤ min x.endTime y.endTime := le_min hx.2.1 hy.2.1.le
    obtain ⟨js, b1, b2⟩ := hy.low.skip_rAt h0 he
    exact one he (by rw [hx.1, hy.1]; exact max_eq_left h0.le) a1 b1 a2 b2
  · obtain ⟨js, b1, b2⟩ := hy.skip (min x.endTime y.endTime)
    have he : t ≤ min x.endTime y.endTime := le_min hx.2.1.le hy.2.1
    obtain ⟨is, a1, a2⟩ := hx.low.skip_rAt h0 he
    exact one he (by rw [hx.1, hy.1]; exact max_eq_right h0.le) a1 b1 a2 b2
  · have he : t < min x.endTime y.endTime := lt_min hx.2.1 hy.2.1
    obtain ⟨is, a1, pi, oi, rfl, a2, a3⟩ := hx.low.skip h0 he
    obtain ⟨js, b1, pj, oj, rfl, b2, b3⟩ := hy.low.skip h0 he
    obtain ⟨j, rest, hjr, hjt⟩ : ∃ j rest, oj ++ [⟨0, w, 0⟩] = j :: rest ∧ j.time ≤ t := by
      rcases b2 with rfl | ⟨d', rfl⟩
      · exact ⟨_, _, rfl, h0.le⟩
      · exact ⟨_, _, rfl, le_rfl⟩
    obtain ⟨z1, p1, τ1, c1, c2, c3, c4⟩ := partialAnd_past (low := oi ++ [⟨0, v, 0⟩]) (rest := rest) h0 hjt pi [] pj _
      a3 b3 (by simp) he
    rw [← hjr] at c1
    obtain ⟨l, d1, d2⟩ := partialAnd_low h0 a2 b2 c2 c3 c4
    obtain ⟨z, e1, e2, e3⟩ := simplify_ext h0 he d2
    refine ⟨z, ?_, .inr ⟨h0, e3⟩⟩
    unfold computeAndM
    simp only [fmax_eq, fmin_eq, hx.1, hy.1, max_self, a1, b1, bind, Except.bind, c1, d1, e1]

theorem computeOrM_led {x y : Signal} {t v w : ℚ} (hx : Led x t v) (hy : Led y t w) :
    ∃ z, computeOrM x y = .ok z ∧ Led z t (max v w) := by
  obtain ⟨z, h1, h2⟩ := computeAndM_led hx.not hy.not
  rw [computeAndM_not] at h1
  cases h : computeOrM x y with
  | error f => rw [h] at h1; simp [Except.map] at h1
  | ok z' =>
    rw [h] at h1
    simp only [Except.map, Except.ok.injEq] at h1
    refine ⟨z', rfl, ?_⟩
    have := h2.not
    rw [← h1, computeNot_computeNot, ← max_neg_neg, neg_neg, neg_neg] at this
    exact this

end STLRom
