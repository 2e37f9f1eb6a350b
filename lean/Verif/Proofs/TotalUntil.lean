import Verif.Proofs.TotalEval
import Verif.Proofs.Members

/-!
# `until` on signals runs through where the operands overlap
-/

namespace STLRom
open Signal

namespace Signal

theorem partialEventually_rest (s : ℚ) : ∀ (is z : List Sample) (t : ℚ) (c : Bool) (m : ℚ),
    LastLe is s → ∃ p z' j js', partialEventually s z is t c m = .ok (p :: z', j :: js') ∧ p.time = s ∧
      j.time ≤ s ∧ ∀ u, u ≤ s → LastLe is u → LastLe (j :: js') u
  | [], _, _, _, _, h => absurd rfl h.ne
  | i :: is, z, t, c, m, h => by
    unfold partialEventually
    have hq : ¬ 0 ≤ i.derivative → ∀ w, ∃ d, qdiv w i.derivative = .ok d := by
      intro hd w
      exact ⟨_, by unfold qdiv; rw [if_neg (fun e => hd e.ge)]⟩
    by_cases h0 : s < i.time
    · rw [if_pos h0]
      have ih : ∀ z t c m, ∃ p z' j js', partialEventually s z is t c m = .ok (p :: z', j :: js') ∧ p.time = s ∧
          j.time ≤ s ∧ ∀ u, u ≤ s → LastLe (i :: is) u → LastLe (j :: js') u := by
        intro z t c m
        obtain ⟨p, z', j, js', h1, h2, h3, h4⟩ := partialEventually_rest s is z t c m (h.tail h0)
        exact ⟨p, z', j, js', h1, h2, h3, fun u hu hl => h4 u hu (hl.tail (hu.trans_lt h0))⟩
      by_cases h1 : 0 ≤ i.derivative
      · rw [if_pos h1]
        split <;> exact ih _ _ _ _
      · rw [if_neg h1]
        split
        · exact ih _ _ _ _
        · split
          · exact ih _ _ _ _
          · obtain ⟨d, hd⟩ := hq h1 (m - i.value)
            simp only [hd, bind, Except.bind]
            exact ih _ _ _ _
    · rw [if_neg h0]
      have hle := not_lt.1 h0
      by_cases h1 : 0 ≤ i.derivative
      · rw [if_pos h1]
        split <;> exact ⟨_, _, _, _, rfl, rfl, hle, fun _ _ h => h⟩
      · rw [if_neg h1]
        split
        · exact ⟨_, _, _, _, rfl, rfl, hle, fun _ _ h => h⟩
        · split
          · exact ⟨_, _, _, _, rfl, rfl, hle, fun _ _ h => h⟩
          · obtain ⟨d, hd⟩ := hq h1 (m - i.value)
            simp only [hd, bind, Except.bind]
            exact ⟨_, _, _, _, rfl, rfl, hle, fun _ _ h => h⟩

theorem LastLe_neg {l : List Sample} {s : ℚ} (h : LastLe l s) : LastLe (negs l) s := by
  obtain ⟨q, hq, hs⟩ := h
  exact ⟨q.neg, by simp [hq], by simpa using hs⟩

theorem LastLe_head {p : Sample} {l : List Sample} {s : ℚ} (h : p.time = s) : LastLe (p :: l).reverse s :=
  ⟨p, by simp, h.le⟩

theorem segmentOr_total (i : Sample) (js z : List Sample) (t : ℚ) (h : LastLe js i.time) :
    ∃ p z' js', segmentOr z i t js = .ok (p :: z', js') ∧ p.time = i.time := by
  obtain ⟨p, z', j, js', h1, h2, -⟩ := segmentAnd_total i.neg (negs js) (negs z) t (by simpa using LastLe_neg h)
  rw [segmentAnd_neg] at h1
  cases hr : segmentOr z i t js with
  | error f => rw [hr] at h1; cases h1
  | ok r =>
    rw [hr] at h1
    obtain ⟨z1, j1⟩ := r
    simp only [Except.map, Except.ok.injEq, Prod.mk.injEq] at h1
    cases z1 with
    | nil => simp at h1
    | cons q z1 =>
      refine ⟨q, z1, j1, rfl, ?_⟩
      have := h1.1
      simp only [List.map_cons, List.cons.injEq] at this
      rw [← this.1] at h2
      simpa using h2

theorem partialOr_total (s : ℚ) (is z js : List Sample) (t : ℚ) (hi : LastLe is s) (hj : LastLe js s) :
    ∃ p z', partialOr s z is js t = .ok (p :: z') ∧ p.time = s := by
  obtain ⟨p, z', h1, h2⟩ := partialAnd_total s (negs is) (negs z) (negs js) t (LastLe_neg hi) (LastLe_neg hj)
  rw [partialAnd_neg] at h1
  cases hr : partialOr s z is js t with
  | error f => rw [hr] at h1; cases h1
  | ok r =>
    rw [hr] at h1
    simp only [Except.map, Except.ok.injEq] at h1
    cases r with
    | nil => simp at h1
    | cons q z1 =>
      simp only [List.map_cons, List.cons.injEq] at h1
      refine ⟨q, z1, rfl, ?_⟩
      rw [← h1.1] at h2
      simpa using h2

theorem segmentUntil_total (B : ℚ) (i : Sample) (js z : List Sample) (t m : ℚ) (h : LastLe js i.time) :
    ∃ p z' j js', segmentUntil B z i t js m = .ok (p :: z', j :: js') ∧ p.time = i.time ∧
      ∀ u, u ≤ i.time → LastLe js u → LastLe (j :: js') u := by
  unfold segmentUntil
  split_ifs with hd
  · obtain ⟨p1, z1, j1, js1, a1, a2, a3, a4⟩ := segmentAnd_total i js [] t h
    obtain ⟨p2, z2, j2, js2, b1, b2, -⟩ := partialEventually_rest i.time (p1 :: z1).reverse [] t false (-B)
      (LastLe_head a2)
    obtain ⟨p3, z3, js3, c1, c2⟩ := segmentOr_total ⟨i.time, fmin m (i.valueAt t), 0⟩ (p2 :: z2).reverse z t
      (LastLe_head b2)
    exact ⟨p3, z3, j1, js1, by simp only [a1, b1, c1, bind, Except.bind], c2, a4⟩
  · obtain ⟨p1, z1, j1, js1, a1, a2, a3, a4⟩ := partialEventually_rest i.time js [] t false (-B) h
    obtain ⟨p2, z2, j2, js2, b1, b2, -⟩ := segmentAnd_total i (p1 :: z1).reverse [] t (LastLe_head a2)
    obtain ⟨p3, z3, j3, js3, c1, c2, -⟩ := segmentAnd_total i [⟨i.time, m, 0⟩] [] t ⟨_, rfl, le_rfl⟩
    obtain ⟨p4, z4, d1, d2⟩ := partialOr_total i.time (p3 :: z3).reverse z (p2 :: z2).reverse t
      (LastLe_head c2) (LastLe_head b2)
    exact ⟨p4, z4, j1, js1, by simp only [a1, b1, c1, d1, bind, Except.bind], d2, a4⟩

theorem untilLoop_total (B s : ℚ) : ∀ (is js z : List Sample) (t m : ℚ), LastLe is s → LastLe js s →
    ∃ p z', untilLoop B s z is js t m = .ok (p :: z') ∧ p.time = s
  | [], _, _, _, _, h, _ => absurd rfl h.ne
  | i :: is, js, z, t, m, hi, hj => by
    unfold untilLoop
    by_cases h0 : s < i.time
    · rw [if_pos h0]
      obtain ⟨p, z', j, js', h1, h2, h3⟩ := segmentUntil_total B i js z t m (hj.mono h0.le)
      simp only [h1, bind, Except.bind]
      have hl := h3 s h0.le hj
      refine untilLoop_total B s is _ _ _ _ (hi.tail h0) ?_
      by_cases h5 : j.time = i.time
      · rw [if_pos h5]
        exact hl.tail (by rw [h5]; exact h0)
      · rw [if_neg h5]; exact hl
    · rw [if_neg h0]
      by_cases h1 : i.time = s
      · rw [if_pos h1]
        obtain ⟨p, z', j, js', h2, h3, -⟩ := segmentUntil_total B i js z t m (by rw [h1]; exact hj)
        simp only [h2, bind, Except.bind]
        exact ⟨p, z', rfl, h3.trans h1⟩
      · rw [if_neg h1]
        obtain ⟨p, z', j, js', h2, h3, -⟩ := segmentUntil_total B ⟨s, i.valueAt s, i.derivative⟩ js z t m hj
        simp only [h2, bind, Except.bind]
        exact ⟨p, z', rfl, h3⟩

theorem computeUntil_total (B : ℚ) {x y : Signal} (hx : Hd x) (hy : Hd y)
    (h : fmax x.beginTime y.beginTime < fmin x.endTime y.endTime) :
    ∃ z, computeUntil B x y = .ok z ∧ Hd z ∧
      z.beginTime = fmax x.beginTime y.beginTime ∧ z.endTime = fmin x.endTime y.endTime := by
  obtain ⟨is, h1, h2⟩ := skip_total (fmin x.endTime y.endTime) _ _
    (Hd_last hx (fmax_le_left x.beginTime y.beginTime)) h
  obtain ⟨js, h3, h4⟩ := skip_total (fmin x.endTime y.endTime) _ _
    (Hd_last hy (fmax_le_right x.beginTime y.beginTime)) h
  obtain ⟨p, z', h5, h6⟩ := untilLoop_total B _ is js [] (fmin x.endTime y.endTime) (-B) h2 h4
  obtain ⟨z, h7, h8⟩ := simplify_total (x := ⟨p :: z', fmax x.beginTime y.beginTime,
    fmin x.endTime y.endTime⟩) ⟨p, z', rfl, h6⟩
  refine ⟨z, ?_, h8⟩
  simp only [computeUntil, h1, h3, h5, bind, Except.bind, h7]

theorem boundedEventually_total (B : ℚ) {x : Signal} {a : ℚ} (hx : Hd x) (ha : 0 < a)
    (h : x.beginTime + a ≤ x.endTime) :
    ∃ z, computeBoundedEventually B x a = .ok z ∧ Hd z ∧ z.beginTime = x.beginTime ∧
      z.endTime = x.endTime := by
  obtain ⟨z1, h1, h2, h3, h4⟩ := plateauMax_total B (a := a) hx h
  obtain ⟨z2, k1, k2, k3, k4⟩ := resize_hd (s := x.beginTime + a) (t := x.endTime + a) (-B) hx.ne (by
    have : (0 : ℚ) < tol := by unfold tol; norm_num
    linarith)
  rw [if_neg (by linarith)] at k4
  have e1 : (shift z2 (-a)).beginTime = x.beginTime := by
    show z2.beginTime + -a = _; rw [k3]; ring
  have e2 : (shift z2 (-a)).endTime = x.endTime := by
    show z2.endTime + -a = _; rw [k4]; ring
  have fm : ∀ a : ℚ, fmax a a = a := fun a => by simp [fmax]
  have fn : ∀ a : ℚ, fmin a a = a := fun a => by simp [fmin]
  obtain ⟨z3, m1, m2, m3, m4⟩ := computeOr_total (Hd_shift k2 (-a)) h2 (by
    rw [e1, e2, h3, h4, fm, fn]; linarith)
  rw [e1, h3, fm] at m3
  rw [e2, h4, fn] at m4
  obtain ⟨z, n1, n2, n3, n4⟩ := computeOr_total hx m2 (by rw [m3, m4, fm, fn]; linarith)
  rw [m3, fm] at n3
  rw [m4, fn] at n4
  obtain ⟨w, o1, o2, o3, o4⟩ := simplify_total n2
  refine ⟨w, ?_, o2, o3.trans n3, o4.trans n4⟩
  simp only [computeBoundedEventually, h1, k1, m1, n1, o1, bind, Except.bind]

theorem boundedGlobally_total (B : ℚ) {x : Signal} {a : ℚ} (hx : Hd x) (ha : 0 < a)
    (h : x.beginTime + a ≤ x.endTime) :
    ∃ z, computeBoundedGlobally B x a = .ok z ∧ Hd z ∧ z.beginTime = x.beginTime ∧
      z.endTime = x.endTime := by
  obtain ⟨z, h1, h2, h3, h4⟩ := boundedEventually_total B (a := a) (Hd_not hx) ha h
  refine ⟨computeNot z, ?_, Hd_not h2, h3, h4⟩
  have := computeBoundedGlobally_not B (computeNot x) a
  rw [computeNot_computeNot, h1] at this
  exact this

/-- `compute_timed_until` on operands that reach past the interval. -/
theorem timedUntil_total (B : ℚ) (old : Signal) {x y : Signal} {a b S E : ℚ} (hx : Hd x) (hy : Hd y)
    (ha : 0 ≤ a) (hab : a < b) (h0 : 0 ≤ E) (hSE : S ≤ E)
    (x1 : x.beginTime ≤ S) (x2 : E + b ≤ x.endTime) (y1 : y.beginTime ≤ S + a) (y2 : E + b ≤ y.endTime) :
    ∃ z, computeTimedUntil B old x y a b = .ok z ∧ Hd z ∧ z.beginTime ≤ S ∧
      z.endTime = min x.endTime y.endTime - a := by
  have hmin : E + b ≤ min x.endTime y.endTime := le_min x2 y2
  have hmax : max x.beginTime y.beginTime ≤ S + a := max_le (by linarith) y1
  unfold computeTimedUntil
  rw [if_neg (by simp [hx.ne, hy.ne]), if_neg (by linarith)]
  unfold computeTimedUntilF
  obtain ⟨z2, a1, a2, a3, a4⟩ := boundedEventually_total B (x := y) (a := b - a) hy (by linarith) (by linarith)
  obtain ⟨z3, b1, b2, b3, b4⟩ := computeUntil_total B hx hy (by rw [fmax_eq, fmin_eq]; linarith)
  rw [fmax_eq] at b3
  rw [fmin_eq] at b4
  obtain ⟨z4, c1, c2, c3, c4⟩ := computeAnd_total a2 b2 (by
    rw [fmax_eq, fmin_eq, a3, a4, b3, b4, max_eq_right (le_max_right _ _), min_eq_right (min_le_right _ _)]
    linarith)
  rw [fmax_eq, a3, b3, max_eq_right (le_max_right _ _)] at c3
  rw [fmin_eq, a4, b4, min_eq_right (min_le_right _ _)] at c4
  simp only [a1, b1, c1, bind, Except.bind]
  split_ifs with hpos
  · obtain ⟨z1, d1, d2, d3, d4⟩ := boundedGlobally_total B (x := x) (a := a) hx hpos (by linarith)
    have e1 : (shift z4 (-a)).beginTime = max x.beginTime y.beginTime - a := by
      show z4.beginTime + -a = _; rw [c3]; ring
    have e2 : (shift z4 (-a)).endTime = min x.endTime y.endTime - a := by
      show z4.endTime + -a = _; rw [c4]; ring
    have hm : min x.endTime (min x.endTime y.endTime - a) = min x.endTime y.endTime - a :=
      min_eq_right ((by linarith : min x.endTime y.endTime - a ≤ min x.endTime y.endTime).trans (min_le_left _ _))
    obtain ⟨z, f1, f2, f3, f4⟩ := computeAnd_total d2 (Hd_shift c2 (-a)) (by
      rw [fmax_eq, fmin_eq, d3, d4, e1, e2, hm]
      exact max_lt (by linarith) (by linarith))
    rw [fmax_eq, d3, e1] at f3
    rw [fmin_eq, d4, e2, hm] at f4
    exact ⟨z, by simp only [d1, f1], f2, by rw [f3]; exact max_le x1 (by linarith), f4⟩
  · have hz : a = 0 := le_antisymm (not_lt.1 hpos) ha
    obtain ⟨z, f1, f2, f3, f4⟩ := computeAnd_total hx c2 (by
      rw [fmax_eq, fmin_eq, c3, c4, max_eq_right (le_max_left _ _), min_eq_right (min_le_left _ _)]
      linarith)
    rw [fmax_eq, c3, max_eq_right (le_max_left _ _)] at f3
    rw [fmin_eq, c4, min_eq_right (min_le_left _ _)] at f4
    exact ⟨z, f1, f2, by rw [f3]; linarith, by rw [f4, hz, sub_zero]⟩

end Signal
end STLRom
