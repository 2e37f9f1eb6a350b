import Verif.Proofs.FormulaLU
import Verif.Proofs.LeftAgain

/-!
# Repeated runs of signal expressions

The bounds run every atom again.  After a successful first run, a further run of a leaf may
change the slope of its last sample, but neither its sample times nor its end time.
-/

namespace STLRom
open Signal Spec

/-- Strictly increasing sample times from the begin time on. -/
structure Incr (z : Signal) : Prop where
  ne : z.samples ≠ []
  head : ∀ p, z.samples.head? = some p → p.time = z.beginTime
  inc : SInc z.samples

theorem frontList_head {s : ℚ} {l : List Sample} (hs : SInc l) :
    ∃ q r, frontList s l = q :: r ∧ q.time = s ∧ SInc (q :: r) := by
  obtain ⟨pre, rest, h1, h2, h3, h4⟩ := trimFront_spec s l Sample.zero hs.sorted
  have hr : SInc rest := (List.pairwise_append.1 (h1 ▸ hs)).2.1
  unfold frontList
  rw [h4]
  cases rest with
  | nil => exact ⟨_, _, rfl, rfl, List.pairwise_singleton _ _⟩
  | cons p r =>
    simp only
    split_ifs with h
    · refine ⟨_, _, rfl, rfl, List.pairwise_cons.2 ⟨fun q hq => ?_, hr⟩⟩
      rcases List.mem_cons.1 hq with rfl | hq
      · exact h
      · exact h.trans ((List.pairwise_cons.1 hr).1 q hq)
    · exact ⟨_, _, rfl, le_antisymm (not_lt.1 h) (h3 p (by simp)), hr⟩

theorem trimBack_head {t : ℚ} {q : Sample} {r : List Sample} (hs : SInc (q :: r)) (h : q.time ≤ t) :
    ∃ r', trimBack t (q :: r) = q :: r' ∧ SInc (q :: r') ∧ ∀ p ∈ q :: r', p.time ≤ t := by
  obtain ⟨a1, a2, a3, a4, _⟩ := trimBack_spec t (q :: r) hs.sorted
  have hm := a3 q (by simp) h
  obtain ⟨p, r', hp⟩ := List.exists_cons_of_ne_nil (List.ne_nil_of_mem hm)
  rw [hp] at a1 a2 a4 ⊢
  have : p = q := by
    obtain ⟨m, hm'⟩ := a4
    simp only [List.cons_append, List.cons.injEq] at hm'
    exact hm'.1
  subst this
  exact ⟨r', rfl, hs.sublist a1, a2⟩

theorem resize_end {x : Signal} {s v : ℚ} (hx : Incr x) (hst : s ≤ x.endTime) :
    ∃ z, resize x s x.endTime v = .ok z ∧ Incr z ∧ z.beginTime = s ∧ z.endTime = x.endTime ∧
      ∀ p ∈ z.samples, p.time ≤ z.endTime := by
  have key : ∀ (q : Sample) (r : List Sample) (b : ℚ), q.time = s → SInc (q :: r) →
      ∃ z, resizeBack ⟨q :: r, b, x.endTime⟩ s x.endTime v = .ok z ∧ Incr z ∧ z.beginTime = s ∧
        z.endTime = x.endTime ∧ ∀ p ∈ z.samples, p.time ≤ z.endTime := by
    intro q r b hq hs
    obtain ⟨r', a1, a2, a3⟩ := trimBack_head hs (hq.le.trans hst)
    refine ⟨⟨q :: r', s, x.endTime⟩, ?_, ⟨by simp, by simpa using hq, a2⟩, rfl, rfl, a3⟩
    simp [resizeBack, a1, bind, Except.bind]
  have htol : ¬ x.endTime < s - tol := by
    have := tol_pos
    intro h
    linarith
  unfold resize
  rw [if_neg htol, if_neg (not_lt.2 hst)]
  rcases lt_or_ge s x.beginTime with h | h
  · obtain ⟨p, l, hl⟩ := List.exists_cons_of_ne_nil hx.ne
    have hp := hx.head p (by simp [hl])
    have hi := hx.inc
    rw [hl] at hi
    have : resizeFront x s = .ok ⟨⟨s, p.value, 0⟩ :: p :: l, x.beginTime, x.endTime⟩ := by
      unfold resizeFront
      rw [if_pos h, hl]
    rw [this]
    refine key _ _ _ rfl (List.pairwise_cons.2 ⟨fun q hq => ?_, hi⟩)
    rcases List.mem_cons.1 hq with rfl | hq
    · show s < q.time
      rw [hp]; exact h
    · have := (List.pairwise_cons.1 hi).1 q hq
      show s < q.time
      linarith
  · rw [resizeFront_eq h hst]
    obtain ⟨q, r, h1, h2, h3⟩ := frontList_head (s := s) hx.inc
    rw [h1]
    exact key q r _ h2 h3

theorem trimBack_snoc {t : ℚ} {L : List Sample} {b : Sample} (h : ∀ p ∈ L, p.time ≤ t) (hb : t < b.time) :
    trimBack t (L ++ [b]) = L := by
  unfold trimBack
  rw [List.reverse_append, List.reverse_singleton, List.singleton_append, List.dropWhile_cons_of_pos (by simpa using hb)]
  have : L.reverse.dropWhile (fun p => decide (t < p.time)) = L.reverse := by
    cases hr : L.reverse with
    | nil => rfl
    | cons a m =>
      have : a ∈ L := by
        rw [← List.mem_reverse, hr]; simp
      simp [not_lt.2 (h a this)]
  rw [this, List.reverse_reverse]

/-- Dropping one sample past the end. -/
theorem resize_snoc {x : Signal} {L : List Sample} {b : Sample} {v : ℚ} (hx : Incr x)
    (h1 : x.samples = L ++ [b]) (h2 : L ≠ []) (h3 : ∀ p ∈ L, p.time ≤ x.endTime)
    (h4 : x.endTime < b.time) (hst : x.beginTime ≤ x.endTime) :
    resize x x.beginTime x.endTime v = .ok ⟨L, x.beginTime, x.endTime⟩ := by
  obtain ⟨p, l, hl⟩ := List.exists_cons_of_ne_nil hx.ne
  have hp := hx.head p (by simp [hl])
  have htol : ¬ x.endTime < x.beginTime - tol := by
    have := tol_pos
    intro h
    linarith
  have hf : frontList x.beginTime x.samples = x.samples := by
    unfold frontList
    rw [hl]
    simp [trimFront, hp]
  have hb : trimBack x.endTime x.samples = L := by
    rw [h1]
    exact trimBack_snoc h3 h4
  unfold resize
  rw [if_neg htol, if_neg (not_lt.2 hst), resizeFront_eq le_rfl hst, hf]
  simp [resizeBack, hb, h2, bind, Except.bind]

theorem resize_id {x : Signal} {v : ℚ} (hx : Incr x) (hle : ∀ p ∈ x.samples, p.time ≤ x.endTime)
    (hst : x.beginTime ≤ x.endTime) : resize x x.beginTime x.endTime v = .ok x := by
  obtain ⟨p, l, hl⟩ := List.exists_cons_of_ne_nil hx.ne
  have hp := hx.head p (by simp [hl])
  have htol : ¬ x.endTime < x.beginTime - tol := by
    have := tol_pos
    intro h
    linarith
  have hf : frontList x.beginTime x.samples = x.samples := by
    unfold frontList
    rw [hl]
    simp [trimFront, hp]
  have hb : trimBack x.endTime x.samples = x.samples := by
    unfold trimBack
    have : x.samples.reverse.dropWhile (fun p => decide (x.endTime < p.time)) = x.samples.reverse := by
      cases hr : x.samples.reverse with
      | nil => rfl
      | cons a m =>
        have : a ∈ x.samples := by
          rw [← List.mem_reverse, hr]; simp
        simp [not_lt.2 (hle a this)]
    rw [this, List.reverse_reverse]
  unfold resize
  rw [if_neg htol, if_neg (not_lt.2 hst), resizeFront_eq le_rfl hst, hf]
  simp [resizeBack, hb, hx.ne, bind, Except.bind]

/-- The signal of a leaf after a run, with the evaluation interval starting at `start`. -/
structure LeafZ (start : ℚ) (z : Signal) : Prop where
  incr : Incr z
  le : ∀ p ∈ z.samples, p.time ≤ z.endTime
  start : z.beginTime = if start < z.endTime then start else z.endTime

theorem LeafZ.begin_le {start : ℚ} {z : Signal} (h : LeafZ start z) : z.beginTime ≤ z.endTime := by
  rw [h.start]
  split_ifs with h'
  · exact h'.le
  · exact le_rfl

theorem leafTrim_any {start stop t v : ℚ} {z : Signal} (hz : Incr z) :
    ∃ z', Tr.leafTrim start stop z t v = .ok z' ∧ LeafZ start z' ∧
      z'.endTime = if stop < t then stop else z.endTime := by
  have key : ∀ x : Signal, Incr x → ∃ z', (if start < x.endTime then
      x.resize start (max start x.endTime) v else x.resize x.endTime x.endTime v) = .ok z' ∧
      LeafZ start z' ∧ z'.endTime = x.endTime := by
    intro x hx
    split_ifs with h
    · rw [max_eq_right h.le]
      obtain ⟨z', h1, h2, h3, h4, h5⟩ := resize_end (v := v) hx h.le
      exact ⟨z', h1, ⟨h2, h5, by rw [h4, if_pos h, h3]⟩, h4⟩
    · obtain ⟨z', h1, h2, h3, h4, h5⟩ := resize_end (v := v) hx le_rfl
      exact ⟨z', h1, ⟨h2, h5, by rw [h4, if_neg h, h3]⟩, h4⟩
  unfold Tr.leafTrim
  split_ifs with h
  · exact key { z with endTime := stop } ⟨hz.ne, hz.head, hz.inc⟩
  · exact key z hz

theorem leafTrim_id {start stop t v : ℚ} {z : Signal} (hz : LeafZ start z) (ht : t ≤ stop) :
    Tr.leafTrim start stop z t v = .ok z := by
  unfold Tr.leafTrim
  rw [if_neg (not_lt.2 ht)]
  have h := hz.start
  simp only
  split_ifs with h'
  · rw [if_pos h'] at h
    rw [max_eq_right h'.le, ← h]
    exact resize_id hz.incr hz.le hz.begin_le
  · rw [if_neg h'] at h
    nth_rw 1 [← h]
    exact resize_id hz.incr hz.le hz.begin_le

/-- An empty signal cannot be trimmed before time 0. -/
theorem leafTrim_empty {start stop v : ℚ} (h : stop < 0) :
    Tr.leafTrim start stop Signal.empty 0 v = .error .ub := by
  have htol := tol_pos
  unfold Tr.leafTrim
  rw [if_pos h]
  simp only
  split_ifs with h'
  · rw [max_eq_right h'.le]
    unfold resize
    rw [if_neg (by intro h''; linarith)]
    simp [resizeFront, Signal.empty, h'.trans h, bind, Except.bind]
  · unfold resize
    rw [if_neg (by intro h''; linarith)]
    simp [resizeFront, Signal.empty, h, bind, Except.bind]

theorem leafTrim_empty0 {start stop v : ℚ} (h : 0 ≤ stop) {z : Signal}
    (hz : Tr.leafTrim start stop Signal.empty 0 v = .ok z) : LeafZ start z := by
  have htol := tol_pos
  unfold Tr.leafTrim at hz
  rw [if_neg (not_lt.2 h)] at hz
  have e0 : Signal.empty.endTime = 0 := rfl
  by_cases h' : start < Signal.empty.endTime
  · rw [if_pos h', max_eq_right h'.le, resize, if_neg (by intro h''; linarith)] at hz
    have : resizeFront Signal.empty start = .error .ub := by
      unfold resizeFront
      rw [if_pos (show start < Signal.empty.beginTime from h')]
      rfl
    rw [this] at hz
    simp [bind, Except.bind] at hz
  · rw [if_neg h', resize, if_neg (by intro h''; linarith), e0] at hz
    have h1 : resizeFront Signal.empty 0 = .ok ⟨[⟨0, 0, 0⟩], 0, 0⟩ := by decide +kernel
    rw [h1] at hz
    simp [resizeBack, bind, Except.bind, trimBack] at hz
    subst hz
    rw [e0] at h'
    exact ⟨⟨by simp, by simp, List.pairwise_singleton _ _⟩, by simp, by simp [h']⟩

theorem append_incr (ip : Interpol) {z : Signal} (hz : Incr z)
    (hle : ∀ p ∈ z.samples, p.time ≤ z.endTime) {t : ℚ} (v d : ℚ) (ht : z.endTime < t) :
    ∃ z' L b, appendSample ip z t v d = .ok z' ∧ z'.samples = L ++ [b] ∧ b.time = t ∧
      times L = times z.samples ∧ z'.beginTime = z.beginTime ∧ z'.endTime = t := by
  unfold appendSample
  rw [if_neg (by intro h; linarith [h.1])]
  cases ip with
  | PREVIOUS =>
    simp only [if_neg hz.ne]
    exact ⟨_, z.samples, ⟨t, v, 0⟩, rfl, rfl, rfl, rfl, rfl, rfl⟩
  | LINEAR =>
    obtain ⟨b, hb⟩ : ∃ b, z.samples.getLast? = some b := ⟨_, List.getLast?_eq_some_getLast hz.ne⟩
    have hbt := hle b (List.mem_of_getLast? hb)
    have hne : t - b.time ≠ 0 := by intro h; linarith
    simp only [hb, qdiv, if_neg hne, bind, Except.bind]
    exact ⟨_, setBackDerivative z.samples ((v - b.value) / (t - b.time)), ⟨t, v, d⟩, rfl, rfl, rfl,
      Tr.times_setBack _ _, rfl, rfl⟩

theorem incr_snoc {z z' : Signal} (hz : Incr z) (hle : ∀ p ∈ z.samples, p.time ≤ z.endTime)
    {L : List Sample} {b : Sample} (h1 : z'.samples = L ++ [b]) (h2 : z.endTime < b.time)
    (h3 : times L = times z.samples) (h4 : z'.beginTime = z.beginTime) (h5 : z'.endTime = b.time) :
    Incr z' ∧ (∀ p ∈ z'.samples, p.time ≤ z'.endTime) ∧ L ≠ [] ∧ ∀ p ∈ L, p.time ≤ z.endTime := by
  have hL : ∀ p ∈ L, p.time ≤ z.endTime := by
    intro p hp
    have : p.time ∈ times z.samples := h3 ▸ List.mem_map_of_mem hp
    obtain ⟨q, hq, e⟩ := List.mem_map.1 this
    rw [← e]
    exact hle q hq
  have hLne : L ≠ [] := by
    rintro rfl
    exact hz.ne (by simpa [times] using h3.symm)
  refine ⟨⟨by simp [h1], ?_, ?_⟩, ?_, hLne, hL⟩
  · intro p hp
    obtain ⟨q, m, hq⟩ := List.exists_cons_of_ne_nil hLne
    obtain ⟨q', m', hq'⟩ := List.exists_cons_of_ne_nil hz.ne
    rw [h1, hq] at hp
    simp only [List.cons_append, List.head?_cons, Option.some.injEq] at hp
    rw [hq, hq'] at h3
    simp only [times, List.map_cons, List.cons.injEq] at h3
    rw [← hp, h3.1, h4]
    exact hz.head q' (by simp [hq'])
  · rw [h1]
    refine List.pairwise_append.2 ⟨sinc_of_times (h3 ▸ sinc_times hz.inc),
      List.pairwise_singleton _ _, fun p hp q hq => ?_⟩
    rw [List.mem_singleton.1 hq]
    exact (hL p hp).trans_lt h2
  · intro p hp
    rw [h1] at hp
    rw [h5]
    rcases List.mem_append.1 hp with hp | hp
    · exact (hL p hp).trans h2.le
    · rw [List.mem_singleton.1 hp]

theorem readLoop_incr (ip : Interpol) (g : List ℚ → ℚ) (stop : ℚ) :
    ∀ (rows : List (List ℚ)) (z : Signal) (td : ℕ) (t v : ℚ),
      (rows.map rowTime).Pairwise (· < ·) → Incr z → (∀ p ∈ z.samples, p.time ≤ z.endTime) →
      (∀ row ∈ rows, z.endTime < rowTime row) → t = z.endTime →
      ∃ z' k t' v', Tr.readLoop ip g stop rows z td t v = .ok (z', td + k, t', v') ∧
        Incr z' ∧ (∀ p ∈ z'.samples, p.time ≤ z'.endTime) ∧ t' = z'.endTime ∧
        (∀ row ∈ rows.drop k, z'.endTime < rowTime row) ∧ (rows.drop k = [] ∨ stop < t')
  | [], z, td, t, v, _, h1, h2, h3, h4 =>
    ⟨z, 0, t, v, rfl, h1, h2, h4, by simp, Or.inl rfl⟩
  | row :: rows, z, td, t, v, h0, h1, h2, h3, h4 => by
    by_cases h : t ≤ stop
    · obtain ⟨z1, L, b, a1, a2, a3, a4, a5, a6⟩ :=
        append_incr ip h1 h2 (g row) 0 (h3 row (by simp))
      rw [← a3] at a6
      obtain ⟨b1, b2, _, _⟩ := incr_snoc h1 h2 a2 (by rw [a3]; exact h3 row (by simp)) a4 a5 a6
      have h0' := List.pairwise_cons.1 h0
      obtain ⟨z', k, t', v', c1, c2, c3, c4, c5, c6⟩ := readLoop_incr ip g stop rows z1 (td + 1)
        (rowTime row) (g row) h0'.2 b1 b2
        (fun r hr => by rw [a6, a3]; exact h0'.1 _ (List.mem_map_of_mem hr)) (by rw [a6, a3])
      refine ⟨z', k + 1, t', v', ?_, c2, c3, c4, by simpa using c5, by simpa using c6⟩
      have a1' : z.appendSample0 ip (rowTime row) (g row) = .ok z1 := a1
      simp only [Tr.readLoop, if_pos h, a1', bind, Except.bind, c1, add_assoc, add_comm 1 k]
    · refine ⟨z, 0, t, v, ?_, h1, h2, h4, by simpa using h3, Or.inr (not_le.1 h)⟩
      simp [Tr.readLoop, if_neg h]

/-- A leaf that has been run: its signal, and the rows it has not read. -/
structure LeafInv (D : List (List ℚ)) (start stop : ℚ) (z : Signal) (td : ℕ) : Prop where
  sig : LeafZ start z
  nonneg : 0 ≤ stop
  data : D ≠ []
  rest : ∀ row ∈ D.drop td, z.endTime < rowTime row
  done : D.drop td = [] ∨ z.endTime = stop

theorem readLoop_fresh {ip : Interpol} {g : List ℚ → ℚ} {start stop : ℚ} {D : List (List ℚ)}
    (hD : (D.map rowTime).Pairwise (· < ·)) (hne : D ≠ []) (h0 : 0 ≤ stop) :
    ∃ z0 k t v, Tr.readLoop ip g stop D Signal.empty 0 0 0 = .ok (z0, k, t, v) ∧
      ∀ w, ∃ z, Tr.leafTrim start stop z0 t w = .ok z ∧ LeafInv D start stop z k := by
  obtain ⟨row, rows, rfl⟩ := List.exists_cons_of_ne_nil hne
  have hD' := List.pairwise_cons.1 hD
  set z1 : Signal := ⟨[⟨rowTime row, g row, 0⟩], rowTime row, rowTime row⟩ with hz1
  have ha : Signal.empty.appendSample0 ip (rowTime row) (g row) = .ok z1 := by
    cases ip <;> simp [Signal.appendSample0, Signal.appendSample, Signal.empty, hz1]
  obtain ⟨z', k, t', v', c1, c2, c3, c4, c5, c6⟩ := readLoop_incr ip g stop rows z1 1
    (rowTime row) (g row) hD'.2 ⟨by simp [hz1], by simp [hz1], List.pairwise_singleton _ _⟩
    (by simp [hz1]) (fun r hr => hD'.1 _ (List.mem_map_of_mem hr)) rfl
  refine ⟨z', 1 + k, t', v', ?_, fun w => ?_⟩
  · simp only [Tr.readLoop, if_pos h0, ha, bind, Except.bind, zero_add, c1]
  · obtain ⟨z, d1, d2, d3⟩ := leafTrim_any (start := start) (stop := stop) (t := t') (v := w) c2
    have hdrop : (row :: rows).drop (1 + k) = rows.drop k := by rw [add_comm]; rfl
    refine ⟨z, d1, d2, h0, hne, ?_, ?_⟩
    · intro r hr
      rw [hdrop] at hr
      have := c5 r hr
      rw [d3]
      split_ifs with h
      · linarith
      · exact this
    · rw [hdrop, d3]
      rcases c6 with c6 | c6
      · exact Or.inl c6
      · exact Or.inr (by rw [if_pos c6])

theorem readLoop_again {ip : Interpol} {g : List ℚ → ℚ} {start stop : ℚ} {D : List (List ℚ)}
    {z : Signal} {td : ℕ} (h : LeafInv D start stop z td) :
    ∃ z0 k t v, Tr.readLoop ip g stop (D.drop td) z td 0 0 = .ok (z0, k, t, v) ∧
      ∀ w, ∃ z', Tr.leafTrim start stop z0 t w = .ok z' ∧ LeafInv D start stop z' k ∧
        times z'.samples = times z.samples ∧ z'.endTime = z.endTime := by
  rcases hd : D.drop td with _ | ⟨row, rows⟩
  · exact ⟨z, td, 0, 0, rfl, fun w => ⟨z, leafTrim_id h.sig h.nonneg, h, rfl, rfl⟩⟩
  · have hE : z.endTime = stop := h.done.resolve_left (by simp [hd])
    have hrow := h.rest row (by simp [hd])
    obtain ⟨z1, L, b, a1, a2, a3, a4, a5, a6⟩ :=
      append_incr ip h.sig.incr h.sig.le (g row) 0 hrow
    have a1' : z.appendSample0 ip (rowTime row) (g row) = .ok z1 := a1
    rw [← a3] at a6
    obtain ⟨b1, b2, b3, b4⟩ := incr_snoc h.sig.incr h.sig.le a2 (by rw [a3]; exact hrow) a4 a5 a6
    have hlt : stop < rowTime row := hE ▸ hrow
    refine ⟨z1, td + 1, rowTime row, g row, ?_, fun w => ?_⟩
    · simp only [Tr.readLoop, if_pos h.nonneg, a1', bind, Except.bind]
      cases rows with
      | nil => rfl
      | cons r rs => simp only [Tr.readLoop, if_neg (not_le.2 hlt)]
    · obtain ⟨z', d1, d2, d3⟩ := leafTrim_any (start := start) (stop := stop) (t := rowTime row)
        (v := w) b1
      rw [if_pos hlt] at d3
      have ht : times z'.samples = times z.samples := by
        have hb : z.beginTime ≤ z.endTime := h.sig.begin_le
        have hs := h.sig.start
        have key := resize_snoc (x := { z1 with endTime := stop }) (v := w)
          ⟨b1.ne, b1.head, b1.inc⟩ a2 b3 (fun p hp => (b4 p hp).trans hE.le)
          (by rw [a3]; exact hlt) (by rw [← hE]; show z1.beginTime ≤ _; rw [a5]; exact hb)
        have : Tr.leafTrim start stop z1 (rowTime row) w = .ok ⟨L, z1.beginTime, stop⟩ := by
          unfold Tr.leafTrim
          rw [if_pos hlt]
          rw [hE] at hs
          simp only
          split_ifs with h'
          · rw [if_pos h', ← a5] at hs
            rw [max_eq_right h'.le, ← hs]
            exact key
          · rw [if_neg h', ← a5] at hs
            simp only at key
            rw [hs] at key ⊢
            exact key
        rw [this] at d1
        obtain rfl := Except.ok.inj d1
        exact a4
      have hdrop : D.drop (td + 1) = rows := by
        rw [← List.drop_drop, hd]; rfl
      refine ⟨z', d1, ⟨d2, h.nonneg, h.data, ?_, Or.inr d3⟩, ht, d3.trans hE.symm⟩
      intro r hr
      rw [hdrop] at hr
      rw [d3, ← hE]
      exact h.rest r (by rw [hd]; simp [hr])

/-! ## Expressions -/

/-- What holds of the samples of an operator after a run. -/
def OpZ (z c : Signal) : Prop :=
  z.samples ≠ [] ∧ (∀ p ∈ z.samples, p.time ≤ z.endTime) ∧ ∀ p ∈ c.samples, p.time ≤ z.endTime

/-- An expression that has been run. -/
def EInv (n : ℕ) (D : List (List ℚ)) : Tr → Prop
  | .sig s v m td => (m.lookup v).getD 0 = 0 ∧ LeafZ s.start s.z ∧ 0 ≤ s.stop ∨
    (m.lookup v).getD 0 ≠ 0 ∧ (m.lookup v).getD 0 ≤ n ∧ ∃ k, td = some k ∧ LeafInv D s.start s.stop s.z k
  | .const s _ _ td => ∃ k, td = some k ∧ LeafInv D s.start s.stop s.z k
  | .abs s c => OpZ s.z c.st.z ∧ EInv n D c
  | .plus s l r | .minus s l r | .mult s l r => OpZ s.z l.st.z ∧
    l.st.z.samples.length ≤ r.st.z.samples.length ∧ EInv n D l ∧ EInv n D r
  | _ => False

theorem EInv.le {n : ℕ} {D : List (List ℚ)} {T : Tr} (h : EInv n D T) :
    ∀ p ∈ T.st.z.samples, p.time ≤ T.st.z.endTime := by
  cases T with
  | sig s v m td =>
    rcases h with ⟨_, h, _⟩ | ⟨_, _, _, _, h⟩
    · exact h.le
    · exact h.sig.le
  | const s p v td =>
    obtain ⟨_, _, h⟩ := h
    exact h.sig.le
  | abs | plus | minus | mult => exact h.1.2.1
  | _ => exact h.elim

theorem binLoop_skip (ip : Interpol) (f : ℚ → ℚ → ℚ) {z : Signal} (hz : z.samples ≠ []) :
    ∀ (l r : List Sample), (∀ p ∈ l, p.time ≤ z.endTime) → l.length ≤ r.length →
      Tr.binLoop ip f z l r = .ok z
  | [], _, _, _ => by simp [Tr.binLoop]
  | p :: l, [], _, h => by simp at h
  | p :: l, q :: r, h, h' => by
    have : z.appendSample0 ip p.time (f p.value q.value) = .ok z := by
      unfold appendSample0 appendSample
      rw [if_pos ⟨h p (by simp), hz⟩]
    simp only [Tr.binLoop, this, bind, Except.bind]
    exact binLoop_skip ip f hz l r (fun a ha => h a (by simp [ha])) (by simpa using h')

theorem absLoop_skip (ip : Interpol) {z : Signal} (hz : z.samples ≠ []) :
    ∀ l : List Sample, (∀ p ∈ l, p.time ≤ z.endTime) → Tr.absLoop ip z l = .ok z
  | [], _ => by simp [Tr.absLoop]
  | p :: l, h => by
    have : z.appendSample0 ip p.time |p.value| = .ok z := by
      unfold appendSample0 appendSample
      rw [if_pos ⟨h p (by simp), hz⟩]
    simp only [Tr.absLoop, this, bind, Except.bind]
    exact absLoop_skip ip hz l (fun a ha => h a (by simp [ha]))

theorem atomLoop_skip (ip : Interpol) (k : Cmp) {z : Signal} (hz : z.samples ≠ []) :
    ∀ (l r : List Sample), (∀ p ∈ l, p.time ≤ z.endTime) → Tr.atomLoop ip k z l r = .ok z
  | [], _, _ => by simp [Tr.atomLoop]
  | p :: l, [], _ => by simp [Tr.atomLoop]
  | p :: l, q :: r, h => by
    have e : ∀ v d, z.appendSample ip p.time v d = .ok z := by
      intro v d
      unfold appendSample
      rw [if_pos ⟨h p (by simp), hz⟩]
    have ih := atomLoop_skip ip k hz l r (fun a ha => h a (by simp [ha]))
    cases k <;> simp only [Tr.atomLoop, e, bind, Except.bind] <;> exact ih

theorem appendSample_le {ip : Interpol} {z z' : Signal} {t v d : ℚ}
    (hle : ∀ p ∈ z.samples, p.time ≤ z.endTime) (h : appendSample ip z t v d = .ok z') :
    (∀ p ∈ z'.samples, p.time ≤ z'.endTime) ∧ t ≤ z'.endTime ∧ z'.samples ≠ [] ∧
      (z.samples ≠ [] → z.endTime ≤ z'.endTime) := by
  by_cases h0 : t ≤ z.endTime ∧ z.samples ≠ []
  · rw [appendSample.eq_def, if_pos h0] at h
    obtain rfl := Except.ok.inj h
    exact ⟨hle, h0.1, h0.2, fun _ => le_rfl⟩
  by_cases hz : z.samples = []
  · have : z' = ⟨[⟨t, v, z'.samples.head?.elim 0 (·.derivative)⟩], t, t⟩ := by
      unfold appendSample at h
      rw [if_neg h0] at h
      cases ip <;> simp [hz] at h <;> subst h <;> simp
    rw [this]
    exact ⟨by simp, le_rfl, by simp, fun h => absurd hz h⟩
  · have ht : z.endTime < t := not_le.1 fun h' => h0 ⟨h', hz⟩
    have hL : ∀ L : List Sample, times L = times z.samples → ∀ p ∈ L, p.time ≤ z.endTime := by
      intro L h3 p hp
      have : p.time ∈ times z.samples := h3 ▸ List.mem_map_of_mem hp
      obtain ⟨q, hq, e⟩ := List.mem_map.1 this
      rw [← e]
      exact hle q hq
    have fin : ∀ (L : List Sample) (b : Sample) (s : ℚ), times L = times z.samples → b.time = t →
        z' = ⟨L ++ [b], s, t⟩ → (∀ p ∈ z'.samples, p.time ≤ z'.endTime) ∧ t ≤ z'.endTime ∧
          z'.samples ≠ [] ∧ (z.samples ≠ [] → z.endTime ≤ z'.endTime) := by
      rintro L b s h1 h2 rfl
      refine ⟨fun p hp => ?_, le_rfl, by simp, fun _ => ht.le⟩
      rcases List.mem_append.1 hp with hp | hp
      · exact (hL L h1 p hp).trans ht.le
      · rw [List.mem_singleton.1 hp, h2]
    unfold appendSample at h
    rw [if_neg h0] at h
    cases ip with
    | PREVIOUS =>
      simp only [if_neg hz] at h
      exact fin _ _ _ rfl rfl (Except.ok.inj h).symm
    | LINEAR =>
      obtain ⟨b, hb⟩ : ∃ b, z.samples.getLast? = some b := ⟨_, List.getLast?_eq_some_getLast hz⟩
      simp only [hb] at h
      obtain ⟨d', _, h⟩ := bind_eq_ok.1 h
      exact fin _ _ _ (Tr.times_setBack _ d') rfl (Except.ok.inj h).symm

theorem binLoop_le (ip : Interpol) (f : ℚ → ℚ → ℚ) : ∀ (l r : List Sample) (z z' : Signal),
    (∀ p ∈ z.samples, p.time ≤ z.endTime) → Tr.binLoop ip f z l r = .ok z' →
    (∀ p ∈ z'.samples, p.time ≤ z'.endTime) ∧ (∀ p ∈ l, p.time ≤ z'.endTime) ∧
      l.length ≤ r.length ∧ (z.samples ≠ [] → z.endTime ≤ z'.endTime ∧ z'.samples ≠ [])
  | [], _, z, z', h, e => by
    simp only [Tr.binLoop] at e
    obtain rfl := Except.ok.inj e
    exact ⟨h, by simp, by simp, fun h => ⟨le_rfl, h⟩⟩
  | p :: l, [], z, z', h, e => by simp [Tr.binLoop] at e
  | p :: l, q :: r, z, z', h, e => by
    simp only [Tr.binLoop] at e
    obtain ⟨z1, e1, e2⟩ := bind_eq_ok.1 e
    obtain ⟨a1, a2, a3, a4⟩ := appendSample_le h e1
    obtain ⟨b1, b2, b3, b4⟩ := binLoop_le ip f l r z1 z' a1 e2
    refine ⟨b1, fun a ha => ?_, by simpa using b3, fun hz => ⟨(a4 hz).trans (b4 a3).1, (b4 a3).2⟩⟩
    rcases List.mem_cons.1 ha with rfl | ha
    · exact a2.trans (b4 a3).1
    · exact b2 a ha

theorem absLoop_le (ip : Interpol) : ∀ (l : List Sample) (z z' : Signal),
    (∀ p ∈ z.samples, p.time ≤ z.endTime) → Tr.absLoop ip z l = .ok z' →
    (∀ p ∈ z'.samples, p.time ≤ z'.endTime) ∧ (∀ p ∈ l, p.time ≤ z'.endTime) ∧
      (z.samples ≠ [] → z.endTime ≤ z'.endTime ∧ z'.samples ≠ [])
  | [], z, z', h, e => by
    simp only [Tr.absLoop] at e
    obtain rfl := Except.ok.inj e
    exact ⟨h, by simp, fun h => ⟨le_rfl, h⟩⟩
  | p :: l, z, z', h, e => by
    simp only [Tr.absLoop] at e
    obtain ⟨z1, e1, e2⟩ := bind_eq_ok.1 e
    obtain ⟨a1, a2, a3, a4⟩ := appendSample_le h e1
    obtain ⟨b1, b2, b4⟩ := absLoop_le ip l z1 z' a1 e2
    refine ⟨b1, fun a ha => ?_, fun hz => ⟨(a4 hz).trans (b4 a3).1, (b4 a3).2⟩⟩
    rcases List.mem_cons.1 ha with rfl | ha
    · exact a2.trans (b4 a3).1
    · exact b2 a ha

theorem front_ne {z : Signal} {p : Sample} (h : z.front = .ok p) : z.samples ≠ [] := by
  unfold Signal.front at h
  intro h'
  rw [h'] at h
  simp at h

section
variable {env : Env} {n : ℕ}

theorem sig_run (hD : WellShaped n env.data) {s : St} {v : String} {m : Assoc ℕ} {T' : Tr} {x : ℚ}
    (hz : s.z = .empty) (h : Tr.computeRob env (.sig s v m (some 0)) = .ok (T', x)) :
    EInv n env.data T' := by
  simp only [Tr.computeRob] at h
  obtain ⟨⟨z, td, r⟩, h1, h2⟩ := bind_eq_ok.1 h
  simp only [Except.ok.injEq, Prod.mk.injEq] at h2
  obtain ⟨rfl, rfl⟩ := h2
  unfold Tr.sigRob at h1
  rcases hi : (m.lookup v).getD 0 with _ | i
  · rw [hi, hz] at h1
    obtain ⟨z', a1, a2⟩ := bind_eq_ok.1 h1
    obtain ⟨p, a2, a3⟩ := bind_eq_ok.1 a2
    simp only [Except.ok.injEq, Prod.mk.injEq] at a3
    obtain ⟨rfl, rfl, rfl⟩ := a3
    have h0 : 0 ≤ s.stop := by
      by_contra h0
      rw [leafTrim_empty (not_le.1 h0)] at a1
      cases a1
    exact Or.inl ⟨hi, leafTrim_empty0 h0 a1, h0⟩
  · rw [hi, hz] at h1
    simp only [List.drop_zero] at h1
    split_ifs at h1 with hc
    have h0 : 0 ≤ s.stop := by
      by_contra h0
      have e : Tr.sigRead env.ip (i + 1) s.stop env.data Signal.empty 0 0 0 = .ok (Signal.empty, 0, 0, 0) := by
        cases env.data with
        | nil => rfl
        | cons a l => simp only [Tr.sigRead, if_neg h0]
      simp only [e, bind, Except.bind, leafTrim_empty (not_le.1 h0)] at h1
      cases h1
    have hne : env.data ≠ [] := fun h => hc ⟨h, h0⟩
    have hin : i + 1 ≤ n := by
      by_contra hin
      obtain ⟨row, rows, hr⟩ := List.exists_cons_of_ne_nil hne
      have hl := hD.1 row (by simp [hr])
      have e : Tr.cell row (i + 1) = .error .ub := by
        unfold Tr.cell
        rw [List.getElem?_eq_none (by omega)]
      rw [hr] at h1
      simp only [Tr.sigRead, if_pos h0, Tr.cell_getD hl (Nat.zero_le _), e, bind, Except.bind] at h1
      cases h1
    rw [Tr.sigRead_eq _ _ n _ hin _ _ _ _ _ hD.1] at h1
    obtain ⟨z0, k, t, w, a1, a2⟩ := readLoop_fresh (ip := env.ip) (g := fun r => r.getD (i + 1) 0)
      (start := s.start) hD.inc hne h0
    obtain ⟨z', a3, a4⟩ := a2 w
    simp only [a1, bind, Except.bind, a3] at h1
    cases hp : z'.front with
    | error f => rw [hp] at h1; cases h1
    | ok p =>
      rw [hp] at h1
      simp only [Except.ok.injEq, Prod.mk.injEq] at h1
      obtain ⟨rfl, rfl, rfl⟩ := h1
      exact Or.inr ⟨by omega, by omega, k, rfl, a4⟩

theorem const_run (hD : WellShaped n env.data) {s : St} {p : String} {v : ℚ} {T' : Tr} {x : ℚ}
    (hz : s.z = .empty) (h : Tr.computeRob env (.const s p v (some 0)) = .ok (T', x)) :
    EInv n env.data T' := by
  simp only [Tr.computeRob] at h
  obtain ⟨⟨z, td⟩, h1, h2⟩ := bind_eq_ok.1 h
  simp only [Except.ok.injEq, Prod.mk.injEq] at h2
  obtain ⟨rfl, rfl⟩ := h2
  unfold Tr.constRob at h1
  rw [hz] at h1
  simp only [List.drop_zero] at h1
  split_ifs at h1 with hc
  have h0 : 0 ≤ s.stop := by
    by_contra h0
    have e : Tr.constRead env.ip (Tr.constValue env.params p v) s.stop env.data Signal.empty 0 0 =
        .ok (Signal.empty, 0, 0) := by
      cases env.data with
      | nil => rfl
      | cons a l => simp only [Tr.constRead, if_neg h0]
    simp only [e, bind, Except.bind, leafTrim_empty (not_le.1 h0)] at h1
    cases h1
  have hne : env.data ≠ [] := fun h => hc ⟨h, h0⟩
  rw [Tr.constRead_eq _ n _ _ _ _ _ _ 0 hD.1] at h1
  obtain ⟨z0, k, t, w, a1, a2⟩ := readLoop_fresh (ip := env.ip)
    (g := fun _ => Tr.constValue env.params p v) (start := s.start) hD.inc hne h0
  obtain ⟨z', a3, a4⟩ := a2 (Tr.constValue env.params p v)
  simp only [a1, bind, Except.bind, a3, Except.map, Except.ok.injEq, Prod.mk.injEq] at h1
  obtain ⟨rfl, rfl⟩ := h1
  exact ⟨k, rfl, a4⟩

theorem sig_rerun (hD : WellShaped n env.data) {s : St} {v : String} {m : Assoc ℕ} {td : Option ℕ}
    (h : EInv n env.data (.sig s v m td)) :
    ∃ T' x, Tr.computeRob env (.sig s v m td) = .ok (T', x) ∧ EInv n env.data T' ∧
      times T'.st.z.samples = times s.z.samples ∧ T'.st.z.endTime = s.z.endTime := by
  rcases h with ⟨hi, h, h0⟩ | ⟨hi, hin, k, rfl, h⟩
  · obtain ⟨p, hp⟩ := front_ok h.incr.ne
    refine ⟨.sig s v m td, p.value, ?_, Or.inl ⟨hi, h, h0⟩, rfl, rfl⟩
    simp only [Tr.computeRob, Tr.sigRob, hi, leafTrim_id h h0, bind, Except.bind, hp]
  · obtain ⟨i, hi'⟩ : ∃ i, (m.lookup v).getD 0 = i + 1 := ⟨(m.lookup v).getD 0 - 1, by omega⟩
    obtain ⟨z0, k', t, w, a1, a2⟩ := readLoop_again (ip := env.ip) (g := fun r => r.getD (i + 1) 0) h
    obtain ⟨z', a3, a4, a5, a6⟩ := a2 w
    obtain ⟨p, hp⟩ := front_ok a4.sig.incr.ne
    refine ⟨.sig { s with z := z' } v m (some k'), p.value, ?_, Or.inr ⟨hi, hin, k', rfl, a4⟩, a5, a6⟩
    have hcond : ¬ (env.data = [] ∧ 0 ≤ s.stop) := fun e => h.data e.1
    have hr : Tr.sigRead env.ip (i + 1) s.stop (env.data.drop k) s.z k 0 0 = .ok (z0, k', t, w) := by
      rw [Tr.sigRead_eq _ _ n _ (hi' ▸ hin) _ _ _ _ _ fun r hr => hD.1 r (List.mem_of_mem_drop hr)]
      exact a1
    simp only [Tr.computeRob, Tr.sigRob, hi', if_neg hcond, hr, bind, Except.bind, a3, hp]

theorem const_rerun (hD : WellShaped n env.data) {s : St} {p : String} {v : ℚ} {td : Option ℕ}
    (h : EInv n env.data (.const s p v td)) :
    ∃ T' x, Tr.computeRob env (.const s p v td) = .ok (T', x) ∧ EInv n env.data T' ∧
      times T'.st.z.samples = times s.z.samples ∧ T'.st.z.endTime = s.z.endTime := by
  obtain ⟨k, rfl, h⟩ := h
  obtain ⟨z0, k', t, w, a1, a2⟩ := readLoop_again (ip := env.ip)
    (g := fun _ => Tr.constValue env.params p v) h
  obtain ⟨z', a3, a4, a5, a6⟩ := a2 (Tr.constValue env.params p v)
  refine ⟨.const { s with z := z' } p (Tr.constValue env.params p v) (some k'), Tr.constValue env.params p v,
    ?_, ⟨k', rfl, a4⟩, a5, a6⟩
  have hcond : ¬ (env.data = [] ∧ 0 ≤ s.stop) := fun e => h.data e.1
  simp only [Tr.computeRob, Tr.constRob, if_neg hcond]
  rw [Tr.constRead_eq _ n _ _ _ _ _ _ 0 fun r hr => hD.1 r (List.mem_of_mem_drop hr), a1]
  simp only [Except.map, bind, Except.bind, a3]

theorem le_of_times {z : Signal} {l l' : List Sample} (ht : times l' = times l)
    (h : ∀ p ∈ l, p.time ≤ z.endTime) : ∀ p ∈ l', p.time ≤ z.endTime := by
  intro p hp
  have : p.time ∈ times l := ht ▸ List.mem_map_of_mem hp
  obtain ⟨q, hq, e⟩ := List.mem_map.1 this
  rw [← e]
  exact h q hq

theorem len_of_times {l l' : List Sample} (ht : times l' = times l) : l'.length = l.length := by
  simpa [times] using congrArg List.length ht

/-- The first run of an expression, if it succeeds. -/
theorem term_run (hD : WellShaped n env.data) {P : Assoc ℚ} {S E : ℚ} : ∀ {T T' : Tr} {x : ℚ},
    IsTerm T → Fresh P S E T → Tr.computeRob env T = .ok (T', x) → EInv n env.data T' := by
  have bin : ∀ {s : St} {f : ℚ → ℚ → ℚ} {l r : Tr} {z : Signal} {p : Sample}, s.z = .empty →
      Tr.binLoop env.ip f s.z l.st.z.samples r.st.z.samples = .ok z → z.front = .ok p →
      OpZ z l.st.z ∧ l.st.z.samples.length ≤ r.st.z.samples.length := by
    intro s f l r z p hz h1 h2
    obtain ⟨a1, a2, a3, _⟩ := binLoop_le env.ip f _ _ _ _ (by simp [hz, Signal.empty]) h1
    exact ⟨⟨front_ne h2, a1, a2⟩, a3⟩
  intro T
  induction T with
  | sig s v m td =>
    intro T' x _ hf h
    obtain ⟨hf, rfl⟩ := hf
    exact sig_run hD hf.2.2.1 h
  | const s p v td =>
    intro T' x _ hf h
    obtain ⟨hf, rfl⟩ := hf
    exact const_run hD hf.2.2.1 h
  | abs s c ih =>
    intro T' x ht hf h
    simp only [Tr.computeRob] at h
    obtain ⟨⟨c', y⟩, h1, h⟩ := bind_eq_ok.1 h
    obtain ⟨z, h2, h⟩ := bind_eq_ok.1 h
    obtain ⟨p, h3, h⟩ := bind_eq_ok.1 h
    simp only [Except.ok.injEq, Prod.mk.injEq] at h
    obtain ⟨rfl, rfl⟩ := h
    obtain ⟨a1, a2, _⟩ := absLoop_le env.ip _ _ _ (by simp [hf.1.2.2.1, Signal.empty]) h2
    exact ⟨⟨front_ne h3, a1, a2⟩, ih ht hf.2 h1⟩
  | plus s l r ih1 ih2 | minus s l r ih1 ih2 | mult s l r ih1 ih2 =>
    intro T' x ht hf h
    simp only [Tr.computeRob] at h
    obtain ⟨⟨l', y⟩, h1, h⟩ := bind_eq_ok.1 h
    obtain ⟨⟨r', y'⟩, h2, h⟩ := bind_eq_ok.1 h
    obtain ⟨z, h3, h⟩ := bind_eq_ok.1 h
    obtain ⟨p, h4, h⟩ := bind_eq_ok.1 h
    simp only [Except.ok.injEq, Prod.mk.injEq] at h
    obtain ⟨rfl, rfl⟩ := h
    obtain ⟨a1, a2⟩ := bin hf.1.2.2.1 h3 h4
    exact ⟨a1, a2, ih1 ht.1 hf.2.1 h1, ih2 ht.2 hf.2.2 h2⟩
  | _ => intro T' x ht; exact ht.elim

/-- A further run of an expression: it succeeds, with the same sample times and end time. -/
theorem term_rerun (hD : WellShaped n env.data) : ∀ {T : Tr}, EInv n env.data T →
    ∃ T' x, Tr.computeRob env T = .ok (T', x) ∧ EInv n env.data T' ∧
      times T'.st.z.samples = times T.st.z.samples ∧ T'.st.z.endTime = T.st.z.endTime := by
  intro T
  induction T with
  | sig s v m td => exact sig_rerun hD
  | const s p v td => exact const_rerun hD
  | abs s c ih =>
    intro h
    obtain ⟨c', y, a1, a2, a3, a4⟩ := ih h.2
    obtain ⟨p, hp⟩ := front_ok h.1.1
    have hle := le_of_times a3 h.1.2.2
    refine ⟨.abs s c', p.value, ?_, ⟨⟨h.1.1, h.1.2.1, hle⟩, a2⟩, rfl, rfl⟩
    simp only [Tr.computeRob, a1, bind, Except.bind, absLoop_skip env.ip h.1.1 _ hle, hp]
  | plus s l r ih1 ih2 | minus s l r ih1 ih2 | mult s l r ih1 ih2 =>
    intro h
    obtain ⟨h1, h2, h3, h4⟩ := h
    obtain ⟨l', y, a1, a2, a3, a4⟩ := ih1 h3
    obtain ⟨r', y', b1, b2, b3, b4⟩ := ih2 h4
    obtain ⟨p, hp⟩ := front_ok h1.1
    have hle := le_of_times a3 h1.2.2
    have hlen : l'.st.z.samples.length ≤ r'.st.z.samples.length := by
      rw [len_of_times a3, len_of_times b3]; exact h2
    first
    | refine ⟨.plus s l' r', p.value, ?_, ⟨⟨h1.1, h1.2.1, hle⟩, hlen, a2, b2⟩, rfl, rfl⟩
      simp only [Tr.computeRob, a1, b1, bind, Except.bind, binLoop_skip env.ip _ h1.1 _ _ hle hlen, hp]
      done
    | refine ⟨.minus s l' r', p.value, ?_, ⟨⟨h1.1, h1.2.1, hle⟩, hlen, a2, b2⟩, rfl, rfl⟩
      simp only [Tr.computeRob, a1, b1, bind, Except.bind, binLoop_skip env.ip _ h1.1 _ _ hle hlen, hp]
      done
    | refine ⟨.mult s l' r', p.value, ?_, ⟨⟨h1.1, h1.2.1, hle⟩, hlen, a2, b2⟩, rfl, rfl⟩
      simp only [Tr.computeRob, a1, b1, bind, Except.bind, binLoop_skip env.ip _ h1.1 _ _ hle hlen, hp]
  | _ => intro h; exact h.elim

/-- Times inside the domain. -/
def Within (z : Signal) : Prop := ∀ p ∈ z.samples, p.time ≤ z.endTime

/-- The signal `z` of an atom that has been run, where `c` is the signal of its left expression. -/
def AtomZ (c z : Signal) : Prop :=
  (z.samples = [] ∨ Incr z) ∧ (Within z ∨ ∀ p ∈ c.samples, p.time ≤ z.endTime)

theorem append_atom {ip : Interpol} {z z' : Signal} {t v d : ℚ} (hz : z.samples = [] ∨ Incr z)
    (hle : Within z) (h : appendSample ip z t v d = .ok z') : Incr z' ∧ Within z' := by
  by_cases h0 : t ≤ z.endTime ∧ z.samples ≠ []
  · rw [appendSample.eq_def, if_pos h0] at h
    obtain rfl := Except.ok.inj h
    exact ⟨hz.resolve_left h0.2, hle⟩
  by_cases he : z.samples = []
  · rw [appendSample.eq_def, if_neg h0] at h
    cases ip <;> simp [he] at h <;> subst h <;>
      exact ⟨⟨by simp, by simp, List.pairwise_singleton _ _⟩, by simp [Within]⟩
  · have hi := hz.resolve_left he
    obtain ⟨z1, L, b, a1, a2, a3, a4, a5, a6⟩ := append_incr ip hi hle v d
      (not_le.1 fun h => h0 ⟨h, he⟩)
    rw [a1] at h
    obtain rfl := Except.ok.inj h
    have := incr_snoc hi hle a2 (by rw [a3]; exact not_le.1 fun h => h0 ⟨h, he⟩) a4 a5
      (by rw [a3]; exact a6)
    exact ⟨this.1, this.2.1⟩

theorem atomLoop_incr {ip : Interpol} {k : Cmp} : ∀ {l r : List Sample} {z z' : Signal},
    (z.samples = [] ∨ Incr z) → Within z → Tr.atomLoop ip k z l r = .ok z' →
      (z'.samples = [] ∨ Incr z') ∧ ∀ p ∈ z'.samples, (∃ q ∈ z.samples, p.time = q.time) ∨
        ∃ q ∈ l, p.time = q.time
  | [], _, z, z', hz, _, h => by
    simp only [Tr.atomLoop, Except.ok.injEq] at h
    subst h
    exact ⟨hz, fun p hp => Or.inl ⟨p, hp, rfl⟩⟩
  | a :: l, [], z, z', hz, _, h => by
    simp only [Tr.atomLoop, Except.ok.injEq] at h
    subst h
    exact ⟨hz, fun p hp => Or.inl ⟨p, hp, rfl⟩⟩
  | a :: l, b :: r, z, z', hz, hw, h => by
    simp only [Tr.atomLoop] at h
    obtain ⟨z1, h1, h⟩ := bind_eq_ok.1 h
    have key : ∀ v d, z.appendSample ip a.time v d = .ok z1 →
        Incr z1 ∧ Within z1 ∧ ∀ p ∈ z1.samples, (∃ q ∈ z.samples, p.time = q.time) ∨ p.time = a.time := by
      intro v d h1
      obtain ⟨k1, k2⟩ := append_atom hz hw h1
      refine ⟨k1, k2, ?_⟩
      rw [appendSample.eq_def] at h1
      by_cases h0 : a.time ≤ z.endTime ∧ z.samples ≠ []
      · rw [if_pos h0] at h1
        obtain rfl := Except.ok.inj h1
        exact fun p hp => Or.inl ⟨p, hp, rfl⟩
      · rw [if_neg h0] at h1
        cases ip with
        | PREVIOUS =>
          simp only at h1
          split_ifs at h1
          · obtain rfl := Except.ok.inj h1
            intro p hp
            simp only [List.mem_singleton] at hp
            exact Or.inr (by rw [hp])
          · obtain rfl := Except.ok.inj h1
            intro p hp
            rcases List.mem_append.1 hp with hp | hp
            · exact Or.inl ⟨p, hp, rfl⟩
            · simp only [List.mem_singleton] at hp
              exact Or.inr (by rw [hp])
        | LINEAR =>
          simp only at h1
          cases hl : z.samples.getLast? with
          | none =>
            rw [hl] at h1
            obtain rfl := Except.ok.inj h1
            intro p hp
            simp only [List.mem_singleton] at hp
            exact Or.inr (by rw [hp])
          | some c =>
            rw [hl] at h1
            obtain ⟨d', _, h1⟩ := bind_eq_ok.1 h1
            obtain rfl := Except.ok.inj h1
            intro p hp
            rcases List.mem_append.1 hp with hp | hp
            · have : p.time ∈ times z.samples := by
                rw [← Tr.times_setBack z.samples d']
                exact List.mem_map_of_mem hp
              obtain ⟨q, hq, e⟩ := List.mem_map.1 this
              exact Or.inl ⟨q, hq, e.symm⟩
            · simp only [List.mem_singleton] at hp
              exact Or.inr (by rw [hp])
    obtain ⟨k1, k2, k3⟩ : Incr z1 ∧ Within z1 ∧
        ∀ p ∈ z1.samples, (∃ q ∈ z.samples, p.time = q.time) ∨ p.time = a.time := by
      cases k <;> exact key _ _ h1
    obtain ⟨m1, m2⟩ := atomLoop_incr (Or.inr k1) k2 h
    refine ⟨m1, fun p hp => ?_⟩
    rcases m2 p hp with ⟨q, hq, e⟩ | ⟨q, hq, e⟩
    · rcases k3 q hq with ⟨q', hq', e'⟩ | e'
      · exact Or.inl ⟨q', hq', e.trans e'⟩
      · exact Or.inr ⟨a, by simp, e.trans e'⟩
    · exact Or.inr ⟨q, by simp [hq], e⟩

/-- One run of an atom, when the signals of its expressions are there. -/
theorem atomRob_run {k : Cmp} {z zl zr z' : Signal} {p : Sample} (hz : AtomZ zl z) (hl : Within zl)
    (h : Tr.atomRob env k z zl zr = .ok z') (hp : z'.front = .ok p) :
    Incr z' ∧ z'.endTime = zl.endTime ∧
      ((∀ q ∈ z.samples, q.time ≤ zl.endTime) → Within z') ∧
      ∀ (l r : List Sample), (∀ q ∈ l, q.time ≤ zl.endTime) → ∀ w w' : Signal,
        Tr.atomRob env k z' ⟨l, w.beginTime, zl.endTime⟩ ⟨r, w.beginTime, w'.endTime⟩ = .ok z' := by
  have hne := front_ne hp
  unfold Tr.atomRob at h
  obtain ⟨y, h1, h⟩ := bind_eq_ok.1 h
  have hy : (y.samples = [] ∨ Incr y) ∧
      ((∀ q ∈ z.samples, q.time ≤ zl.endTime) → ∀ p ∈ y.samples, p.time ≤ zl.endTime) := by
    obtain ⟨c1, c2⟩ := hz
    by_cases hs : z.samples = []
    · obtain ⟨m1, m2⟩ := atomLoop_incr c1 (by rw [Within, hs]; simp) h1
      refine ⟨m1, fun hh p hp => ?_⟩
      rcases m2 p hp with ⟨q, hq, e⟩ | ⟨q, hq, e⟩
      · rw [e]; exact hh q hq
      · rw [e]; exact hl q hq
    · rcases c2 with c2 | c2
      · obtain ⟨m1, m2⟩ := atomLoop_incr c1 c2 h1
        refine ⟨m1, fun hh p hp => ?_⟩
        rcases m2 p hp with ⟨q, hq, e⟩ | ⟨q, hq, e⟩
        · rw [e]; exact hh q hq
        · rw [e]; exact hl q hq
      · rw [atomLoop_skip env.ip k hs _ _ c2] at h1
        obtain rfl := Except.ok.inj h1
        exact ⟨c1, fun hh => hh⟩
  obtain ⟨hy, hyw⟩ := hy
  simp only at h
  have again : ∀ (l : List Sample) (r : List Sample), (∀ q ∈ l, q.time ≤ zl.endTime) → z'.endTime = zl.endTime →
      Tr.atomLoop env.ip k z' l r = .ok z' := by
    intro l r hq he
    exact atomLoop_skip env.ip k hne _ _ (by rw [he]; exact hq)
  cases hsem : env.sem with
  | SPACE =>
    rw [hsem] at h
    obtain rfl := Except.ok.inj h
    have hi := hy.resolve_left hne
    refine ⟨⟨hi.ne, hi.head, hi.inc⟩, rfl, hyw, ?_⟩
    intro l r hq w w'
    unfold Tr.atomRob
    rw [again l r hq rfl, hsem]
    rfl
  | LEFT_TIME =>
    rw [hsem] at h
    simp only at h
    have hi : Incr y := by
      refine hy.resolve_left fun he => ?_
      rw [computeLeftTimeRob, computeBoolean, booleanLoop_eq] at h
      simp [he, boolList, simplify, bind, Except.bind] at h
    obtain ⟨q, hq⟩ : ∃ q, y.samples.head? = some q := by
      cases hh : y.samples with
      | nil => exact absurd hh hi.ne
      | cons a l => exact ⟨a, rfl⟩
    obtain ⟨a1, ⟨q', a2, a2'⟩, a3, a4, a5⟩ := leftTimeRob_again (y := { y with endTime := zl.endTime })
      hi.inc hq (hi.head q hq) h hne
    refine ⟨⟨hne, ?_, a1⟩, a3, fun hh => a4 (hyw hh), ?_⟩
    · intro p hp
      rw [a2] at hp
      rw [← Option.some.inj hp]
      exact a2'
    · intro l r hq w w'
      unfold Tr.atomRob
      rw [again l r hq a3, hsem]
      show computeLeftTimeRob { z' with endTime := zl.endTime } = _
      have e : ({ z' with endTime := zl.endTime } : Signal) = z' := by
        obtain ⟨_, _, e⟩ := z'
        have a3 : e = zl.endTime := a3
        rw [a3]
      rw [e]
      exact a5
  | RIGHT_TIME =>
    rw [hsem] at h
    simp only [computeRightTimeRob] at h
    obtain ⟨yb, _, h⟩ := bind_eq_ok.1 h
    cases hb : yb.samples with
    | nil =>
      rw [hb] at h
      obtain rfl := Except.ok.inj h
      exact absurd rfl hne
    | cons => rw [hb] at h; cases h
  | BOOLEAN => rw [hsem] at h; cases h

/-- The first run of an atom. -/
theorem atom_run (hD : WellShaped n env.data) {s : St} {k : Cmp} {P : Assoc ℚ} {S E : ℚ}
    {l r T' : Tr} {x : ℚ} (htl : IsTerm l) (htr : IsTerm r) (hs : s.z = .empty) (hl : Fresh P S E l)
    (hr : Fresh P S E r) (h : Tr.computeRob env (.atom s k l r) = .ok (T', x)) :
    ∃ z l' r' p, T' = .atom { s with z := z } k l' r' ∧ EInv n env.data l' ∧ EInv n env.data r' ∧
      Incr z ∧ Within z ∧ z.front = .ok p ∧ x = p.value := by
  simp only [Tr.computeRob] at h
  obtain ⟨⟨l', y⟩, h1, h⟩ := bind_eq_ok.1 h
  obtain ⟨⟨r', y'⟩, h2, h⟩ := bind_eq_ok.1 h
  obtain ⟨z, h3, h⟩ := bind_eq_ok.1 h
  obtain ⟨p, h4, h⟩ := bind_eq_ok.1 h
  simp only [Except.ok.injEq, Prod.mk.injEq] at h
  obtain ⟨rfl, rfl⟩ := h
  have hl' := term_run hD htl hl h1
  rw [hs] at h3
  obtain ⟨a1, _, a3, _⟩ := atomRob_run (z := .empty) ⟨Or.inl rfl, Or.inl (by simp [Within, Signal.empty])⟩
    hl'.le h3 h4
  exact ⟨z, l', r', p, rfl, hl', term_run hD htr hr h2, a1, a3 (by simp [Signal.empty]), h4, rfl⟩

/-- Running an atom whose expressions have been run: it keeps everything but `z`, and running it
once more gives the same `z`. -/
theorem atom_rerun (hD : WellShaped n env.data) {s : St} {k : Cmp}
    {l r T' : Tr} {x : ℚ} (hz : AtomZ l.st.z s.z) (hl : EInv n env.data l) (hr : EInv n env.data r)
    (h : Tr.computeRob env (.atom s k l r) = .ok (T', x)) :
    ∃ z l' r', T' = .atom { s with z := z } k l' r' ∧ AtomZ l'.st.z z ∧ EInv n env.data l' ∧
      EInv n env.data r' ∧
      ∀ lo up, ∃ T'' x', Tr.computeRob env (.atom { s with z := z, zlow := lo, zup := up } k l' r') =
        .ok (T'', x') ∧ T''.st.z = z := by
  obtain ⟨l', y, a1, a2, a3, a4⟩ := term_rerun hD hl
  obtain ⟨r', y', b1, b2, b3, b4⟩ := term_rerun hD hr
  simp only [Tr.computeRob, a1, b1] at h
  simp only [bind, Except.bind] at h
  cases hzz : Tr.atomRob env k s.z l'.st.z r'.st.z with
  | error f => rw [hzz] at h; cases h
  | ok z =>
    rw [hzz] at h
    simp only at h
    cases hp : z.front with
    | error f => rw [hp] at h; cases h
    | ok p =>
      rw [hp] at h
      simp only [Except.ok.injEq, Prod.mk.injEq] at h
      obtain ⟨rfl, rfl⟩ := h
      have hz' : AtomZ l'.st.z s.z := by
        refine ⟨hz.1, hz.2.imp_right fun hh => ?_⟩
        exact le_of_times a3 hh
      obtain ⟨e1, e2, _, e4⟩ := atomRob_run hz' a2.le hzz hp
      refine ⟨z, l', r', rfl, ⟨Or.inr e1, Or.inr (by rw [e2]; exact a2.le)⟩, a2, b2, fun lo up => ?_⟩
      obtain ⟨l'', w, c1, c2, c3, c4⟩ := term_rerun hD a2
      obtain ⟨r'', w', d1, d2, d3, d4⟩ := term_rerun hD b2
      have hle : ∀ q ∈ l''.st.z.samples, q.time ≤ l'.st.z.endTime := le_of_times c3 a2.le
      have hz'' : Tr.atomRob env k z l''.st.z r''.st.z = .ok z := by
        have := e4 l''.st.z.samples r''.st.z.samples hle l''.st.z r''.st.z
        rw [← c4] at this
        simpa [Tr.atomRob] using this
      refine ⟨.atom { s with z := z, zlow := lo, zup := up } k l'' r'', p.value, ?_, rfl⟩
      simp only [Tr.computeRob, c1, d1, bind, Except.bind, hz'', hp]

/-- What `ev` leaves of its child's signal. -/
theorem resize_tail {x y : Signal} {s v : ℚ} (hx : Incr x) (hw : Within x)
    (h : resize x s x.endTime v = .ok y) : (y.samples = [] ∨ Incr y) ∧ Within y := by
  by_cases hs : s ≤ x.endTime
  · obtain ⟨z, a1, a2, _, _, a5⟩ := resize_end (v := v) hx hs
    rw [a1] at h
    obtain rfl := Except.ok.inj h
    exact ⟨Or.inr a2, a5⟩
  · have hs := not_le.1 hs
    unfold resize at h
    split_ifs at h with ht
    · obtain rfl := Except.ok.inj h
      exact ⟨Or.inl rfl, by simp [Within]⟩
    · obtain ⟨x1, h1, h⟩ := bind_eq_ok.1 h
      have hb : x.beginTime ≤ s := by
        obtain ⟨q, l, hq⟩ := List.exists_cons_of_ne_nil hx.ne
        rw [← hx.head q (by simp [hq])]
        exact (hw q (by simp [hq])).trans hs.le
      have hpop : ∀ (l : List Sample) (f : Sample), (∀ p ∈ l, p.time ≤ x.endTime) →
          (trimFront s f l).2 = [] := by
        intro l
        induction l with
        | nil => intro f _; rfl
        | cons a l ih =>
          intro f hh
          rw [trimFront, if_pos ((hh a (by simp)).trans_lt hs)]
          exact ih a fun p hp => hh p (by simp [hp])
      have h2 := hpop x.samples Sample.zero hw
      unfold resizeFront at h1
      rw [if_neg (not_lt.2 hb)] at h1
      rcases hf : trimFront s Sample.zero x.samples with ⟨f, l⟩
      rw [hf] at h1 h2
      simp only at h2
      subst h2
      simp only [if_pos hs, Except.ok.injEq] at h1
      subst h1
      simp only [resizeBack, lt_irrefl, if_false, bind, Except.bind, Except.ok.injEq] at h
      subst h
      simp only [trimBack, List.reverse_singleton, List.dropWhile_cons, lt_irrefl, decide_false]
      exact ⟨Or.inr ⟨by simp, by simp, List.pairwise_singleton _ _⟩, by simp [Within]⟩

end

end STLRom
