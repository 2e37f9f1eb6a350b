import Verif.Model.Members
import Verif.Proofs.UntilFirst

/-!
# The bounded members of `Signal` as computed

The plateau members run like `plateauMax`, keeping only part of its output.
-/

namespace STLRom
open Signal

theorem pushPlateau_ok (m : List Point) (t : ℚ) (b : Sample) (z : List Sample) :
    ∃ ext, pushPlateau m t (b :: z) = .ok (ext ++ b :: z) ∧
      (ext = [] ∨ ∃ v, ext = [⟨t, v, 0⟩] ∧ b.time < t) := by
  cases m with
  | nil => exact ⟨[], rfl, Or.inl rfl⟩
  | cons p m =>
    by_cases h : b.time < t
    · exact ⟨[⟨t, p.value, 0⟩], by simp [pushPlateau, h], Or.inr ⟨_, rfl, h⟩⟩
    · exact ⟨[], by simp [pushPlateau, h], Or.inl rfl⟩

/-- What was written before is kept. -/
theorem plateauMaxLoop_keep (B a : ℚ) : ∀ (n : ℕ) (m is : List Point) (z : List Sample) (t : ℚ)
    (c d : Bool) (r : List Sample), plateauMaxLoop B a n m is z t c d = .ok r → ∀ p ∈ z, p ∈ r
  | 0, _, _, _, _, _, _, _, h => by cases h
  | n + 1, m, is, z, t, c, d, r, h => by
    rw [plateauMaxLoop.eq_def] at h
    simp only [bind, Except.bind] at h
    intro p hp
    cases hm : popFront d m with
    | error f => rw [hm] at h; cases h
    | ok m1 =>
      rw [hm] at h
      simp only at h
      cases he : enterMax c m1 is with
      | error f => rw [he] at h; cases h
      | ok q =>
        obtain ⟨m2, is2⟩ := q
        rw [he] at h
        simp only at h
        have hp' : p ∈ (⟨t, frontVal (-B) m2, 0⟩ :: z : List Sample) := List.mem_cons_of_mem _ hp
        cases m2 with
        | nil =>
          cases is2 with
          | nil => cases h; exact hp'
          | cons i is2 => exact plateauMaxLoop_keep B a n _ _ _ _ _ _ r h p hp'
        | cons k m2 =>
          cases is2 with
          | nil => exact plateauMaxLoop_keep B a n _ _ _ _ _ _ r h p hp'
          | cons i is2 =>
            simp only at h
            split_ifs at h
            all_goals exact plateauMaxLoop_keep B a n _ _ _ _ _ _ r h p hp'

/-- The loop of the member runs in step with the loop of `plateauMax`; it writes flat samples, at
increasing times, each at a time written by the other loop. -/
theorem plateauMaxMLoop_step (B a : ℚ) : ∀ (n : ℕ) (m is : List Point) (z : List Sample) (t : ℚ)
    (c d : Bool) (r : List Sample), plateauMaxLoop B a n m is z t c d = .ok r →
    ∀ (b : Sample) (w : List Sample), (b :: w).Pairwise (fun p q => q.time < p.time) →
    ∃ e, plateauMaxMLoop a n m is (b :: w) t c d = .ok (e ++ b :: w) ∧
      (e ++ b :: w).Pairwise (fun p q => q.time < p.time) ∧
      (∀ p ∈ e, p.derivative = 0) ∧ ∀ p ∈ e, ∃ q ∈ r, q.time = p.time
  | 0, _, _, _, _, _, _, _, h => by cases h
  | n + 1, m, is, z, t, c, d, r, h => by
    intro b w hw
    rw [plateauMaxMLoop.eq_def]
    rw [plateauMaxLoop.eq_def] at h
    simp only [bind, Except.bind] at h ⊢
    cases hm : popFront d m with
    | error f => rw [hm] at h; cases h
    | ok m1 =>
      rw [hm] at h
      simp only at h ⊢
      cases he : enterMax c m1 is with
      | error f => rw [he] at h; cases h
      | ok q =>
        obtain ⟨m2, is2⟩ := q
        rw [he] at h
        simp only at h ⊢
        obtain ⟨ext, hx, hxx⟩ := pushPlateau_ok m2 t b w
        rw [hx]
        simp only
        obtain ⟨b', w', hb'⟩ : ∃ b' w', ext ++ b :: w = b' :: w' := by
          rcases hxx with rfl | ⟨v, rfl, _⟩
          · exact ⟨b, w, rfl⟩
          · exact ⟨_, _, rfl⟩
        have hw' : (b' :: w').Pairwise (fun p q : Sample => q.time < p.time) := by
          rw [← hb']
          rcases hxx with rfl | ⟨v, rfl, hv⟩
          · exact hw
          · refine List.pairwise_cons.2 ⟨fun q hq => ?_, hw⟩
            rcases List.mem_cons.1 hq with rfl | hq
            · exact hv
            · exact ((List.pairwise_cons.1 hw).1 q hq).trans hv
        have hext : ∀ p ∈ ext, p.derivative = 0 ∧ p.time = t := by
          rcases hxx with rfl | ⟨v, rfl, hv⟩
          · simp
          · simp
        have fin : ∀ (m2' is2' : List Point) (t' : ℚ) (c' d' : Bool),
            plateauMaxLoop B a n m2' is2' (⟨t, frontVal (-B) m2, 0⟩ :: z) t' c' d' = .ok r →
            ∃ e, plateauMaxMLoop a n m2' is2' (ext ++ b :: w) t' c' d' = .ok (e ++ b :: w) ∧
              (e ++ b :: w).Pairwise (fun p q => q.time < p.time) ∧
              (∀ p ∈ e, p.derivative = 0) ∧ ∀ p ∈ e, ∃ q ∈ r, q.time = p.time := by
          intro m2' is2' t' c' d' h'
          obtain ⟨e, h1, h2, h3, h4⟩ := plateauMaxMLoop_step B a n m2' is2' _ t' c' d' r h' b' w' hw'
          have hk := plateauMaxLoop_keep B a n _ _ _ _ _ _ r h' _ List.mem_cons_self
          rw [← hb', ← List.append_assoc] at h1 h2
          refine ⟨e ++ ext, h1, h2, ?_, ?_⟩
          · intro p hp
            rcases List.mem_append.1 hp with hp | hp
            · exact h3 p hp
            · exact (hext p hp).1
          · intro p hp
            rcases List.mem_append.1 hp with hp | hp
            · exact h4 p hp
            · exact ⟨_, hk, (hext p hp).2.symm⟩
        cases m2 with
        | nil =>
          cases is2 with
          | nil =>
            simp only [Except.ok.injEq] at h
            subst h
            exact ⟨ext, rfl, by rw [hb']; exact hw', fun p hp => (hext p hp).1,
              fun p hp => ⟨_, List.mem_cons_self, (hext p hp).2.symm⟩⟩
          | cons i is2 => exact fin _ _ _ _ _ h
        | cons k m2 =>
          cases is2 with
          | nil => exact fin _ _ _ _ _ h
          | cons i is2 =>
            simp only at h ⊢
            split_ifs at h ⊢
            all_goals exact fin _ _ _ _ _ h

theorem initMax_ne {lim : ℚ} : ∀ (is m : List Point) (r : List Point × List Point),
    m ≠ [] → initMax lim m is = .ok r → r.1 ≠ []
  | [], _, _, _, h => by cases h
  | i :: is, m, r, hm, h => by
    rw [initMax] at h
    split_ifs at h
    · exact initMax_ne is _ r (by simp) h
    · cases h; exact hm

theorem initMax_past {lim : ℚ} : ∀ (is m : List Point), (∀ p ∈ is, p.time < lim) →
    initMax lim m is = .error .ub
  | [], _, _ => rfl
  | i :: is, m, h => by
    rw [initMax, if_pos (h i List.mem_cons_self)]
    exact initMax_past is _ fun p hp => h p (List.mem_cons_of_mem _ hp)

/-- `compute_plateau_max` returns whenever `plateauMax` does and the window has positive length. -/
theorem plateauMaxM_ok {x z : Signal} {B a : ℚ} (hx : WF0 x) (ha : 0 < a)
    (hz : plateauMax B x a = .ok z) (hw : WF0 z)
    (hbe : x.beginTime < x.endTime) :
    ∃ w, plateauMaxM B x a = .ok w ∧ w.beginTime = x.beginTime ∧ w.endTime = x.endTime ∧ WF0 w := by
  obtain ⟨f, l, hl, hfb⟩ := hx.exists_cons
  unfold plateauMax at hz
  unfold plateauMaxM
  rw [hl] at hz ⊢
  simp only [bind, Except.bind] at hz ⊢
  cases hi : initMax (x.beginTime + a) []
      (⟨f.time, f.value⟩ :: peaksMax (f :: l).reverse x.endTime (-B) []) with
  | error e => rw [hi] at hz; cases hz
  | ok r =>
    obtain ⟨m, is⟩ := r
    rw [hi] at hz
    have hm : m ≠ [] := by
      rw [initMax, if_pos (by show f.time < _; rw [hfb]; linarith)] at hi
      exact initMax_ne _ _ _ (by simp) hi
    simp only at hz ⊢
    cases is with
    | nil => cases hz
    | cons i is =>
      cases m with
      | nil => exact absurd rfl hm
      | cons p m =>
        simp only at hz ⊢
        generalize 2 * (⟨f.time, f.value⟩ :: peaksMax (f :: l).reverse x.endTime (-B) [] :
          List Point).length + 2 = n at hz ⊢
        cases hr : plateauMaxLoop B a n (p :: m) (i :: is) [] x.beginTime
            (decide (i.time = x.beginTime + a)) false with
        | error e => rw [hr] at hz; cases hz
        | ok r =>
          rw [hr] at hz
          obtain ⟨e, h1, h2, h3, h4⟩ := plateauMaxMLoop_step B a n _ _ _ _ _ _ r hr
            ⟨x.beginTime, p.value, 0⟩ [] (List.pairwise_singleton _ _)
          rw [h1]
          refine ⟨_, rfl, rfl, rfl, ?_⟩
          have hle : ∀ q ∈ r, q.time ≤ x.endTime := by
            intro q hq
            simp only at hz
            cases r with
            | nil => cases hq
            | cons k r =>
              simp only [Except.ok.injEq] at hz
              by_cases hk : k.time = x.endTime
              · rcases List.mem_cons.1 hq with rfl | hq
                · exact hk.le
                · rw [if_pos hk] at hz
                  have := hw.le_end q (by rw [← hz]; simpa using hq)
                  rwa [← hz] at this
              · rw [if_neg hk] at hz
                have := hw.le_end q (by rw [← hz]; exact List.mem_reverse.2 hq)
                rwa [← hz] at this
          refine ⟨by simp, ?_, ?_, ?_⟩
          · intro q hq
            simp only [List.reverse_append, List.reverse_cons, List.reverse_nil, List.nil_append,
              List.cons_append, List.head?_cons, Option.some.injEq] at hq
            rw [← hq]
          · show List.Pairwise _ _
            rw [List.pairwise_reverse]
            exact h2.imp fun h => h.le
          · intro q hq
            rw [List.mem_reverse] at hq
            rcases List.mem_append.1 hq with hq | hq
            · obtain ⟨k, hk, hkt⟩ := h4 q hq
              rw [← hkt]; exact hle k hk
            · rw [List.mem_singleton] at hq
              rw [hq]; exact hbe.le

/-- Resizing the empty signal. -/
theorem resize_empty {s t : ℚ} (v : ℚ) (hs : 0 ≤ s) (hst : s < t) :
    ∃ z, resize Signal.empty s t v = .ok z ∧ z.beginTime = s ∧ z.endTime = t ∧ WF0 z := by
  have hn : ¬ t < s - tol := by
    have : (0 : ℚ) < tol := by unfold tol; norm_num
    linarith
  have hf : resizeFront Signal.empty s = .ok ⟨[⟨s, 0, 0⟩], 0, s⟩ := by
    unfold resizeFront
    rw [if_neg (show ¬ s < Signal.empty.beginTime from not_lt.2 hs)]
    have : (if Signal.empty.endTime < s then s else Signal.empty.endTime) = s := by
      split_ifs with h
      · rfl
      · exact le_antisymm hs (not_lt.1 h)
    show (.ok ⟨[⟨s, Sample.zero.valueAt s, 0⟩], 0,
      if Signal.empty.endTime < s then s else Signal.empty.endTime⟩ : M Signal) = _
    rw [this]
    simp [Sample.zero, Sample.valueAt]
  unfold resize
  rw [if_neg hn, hf]
  simp only [bind, Except.bind, if_neg (not_lt.2 hst.le), resizeBack, hst, if_true,
    List.getLast?_singleton]
  by_cases h : (0 : ℚ) ≠ v ∨ (0 : ℚ) ≠ 0
  · rw [if_pos h]
    simp only [List.cons_append, List.nil_append, reduceCtorEq, if_false]
    refine ⟨_, rfl, rfl, rfl, by simp, by simp, ?_, ?_⟩
    · simp [Sorted]
    · simp [hst.le]
  · rw [if_neg h]
    simp only [List.cons_ne_nil, if_false]
    refine ⟨_, rfl, rfl, rfl, by simp, by simp, ?_, ?_⟩
    · simp [Sorted]
    · simp [hst.le]

/-- `compute_bounded_eventually` returns, on the interval of `x`, a signal that is never below
`x`. -/
theorem computeBoundedEventuallyM_ge {x : Signal} {B a : ℚ} (old : Signal) (hx : WF0 x)
    (hg : SInc x.samples ∨ CG x) (ha : 0 < a) (hab : x.beginTime + a ≤ x.endTime)
    (h0 : 0 ≤ x.beginTime + a)
    (hB : ∀ σ, pl x.beginTime ≤ σ → σ ≤ pl x.endTime → -B ≤ x.v σ) :
    ∃ z, computeBoundedEventuallyM B old x a = .ok z ∧ z.beginTime = x.beginTime ∧
      z.endTime = x.endTime ∧ WF z ∧
      ∀ τ, pl x.beginTime ≤ τ → τ ≤ mi x.endTime → x.v τ ≤ z.v τ := by
  obtain ⟨f, l, hl, hfb⟩ := hx.exists_cons
  have hbe : x.beginTime < x.endTime := by linarith
  have hpt := pk_times (B := B) (e := x.endTime) f l (hl ▸ hx.sorted) (hl ▸ hx.le_end)
  have hpf := pk_facts (B := B) (e := x.endTime) f l
  rw [← hl] at hpt hpf
  have htidy := peaks_tidy hx hg hbe hl hfb hB
  have hyb : ∀ p ∈ pk B x.endTime x.samples, x.beginTime ≤ p.time ∧ p.time ≤ x.endTime := by
    intro p hp
    rcases hpt.2 p hp with h | ⟨q, hq, h⟩
    · rw [h]; exact ⟨hbe.le, le_rfl⟩
    · rw [h]
      exact ⟨hx.begin_le q (by simp [hl, hq]), hx.le_end q (by simp [hl, hq])⟩
  obtain ⟨pe, hpe, hpee, _⟩ := hpf.1
  obtain ⟨z1, p1, p2, p3, p4, -, -, -⟩ := plateauMax_spec hl hfb ha hab hpt.1 htidy hyb
    ⟨pe, hpe, hpee⟩
  obtain ⟨w1, m1, m2, m3, m4⟩ := plateauMaxM_ok hx ha p1 p4 hbe
  obtain ⟨z2, r1, r2, r3, r4⟩ := resize_empty (-B) h0 (show x.beginTime + a < x.endTime + a by linarith)
  have hsb : (z2.shift (-a)).beginTime = x.beginTime := by
    show z2.beginTime + -a = _; rw [r2]; ring
  have hse : (z2.shift (-a)).endTime = x.endTime := by
    show z2.endTime + -a = _; rw [r3]; ring
  have hmax3 : max (z2.shift (-a)).beginTime w1.beginTime = x.beginTime := by rw [hsb, m2, max_self]
  have hmin3 : min (z2.shift (-a)).endTime w1.endTime = x.endTime := by rw [hse, m3, min_self]
  obtain ⟨z3, o1, o2⟩ := computeOrM_spec_lt (r4.shift (-a)) m4 (by rw [hmax3, hmin3]; exact hbe)
  rw [hmax3, hmin3] at o2
  have hmax4 : max x.beginTime z3.beginTime = x.beginTime := by rw [o2.begin_eq, max_self]
  have hmin4 : min x.endTime z3.endTime = x.endTime := by rw [o2.end_eq, min_self]
  obtain ⟨z4, q1, q2⟩ := computeOrM_spec_lt hx o2.wf.toWF0 (by rw [hmax4, hmin4]; exact hbe)
  rw [hmax4, hmin4] at q2
  obtain ⟨z, s1, s2, s3, s4, s5, s6⟩ := simplify_cg q2.wf
  rw [q2.end_eq] at s5
  refine ⟨z, ?_, by rw [s2, q2.begin_eq], by rw [s3, q2.end_eq], s4, ?_⟩
  · unfold computeBoundedEventuallyM
    rw [if_neg hx.ne]
    simp only [m1, r1, o1, q1, s1, bind, Except.bind]
  · intro τ h1 h2
    rw [s5 _ (h2.trans (by simp)), q2.val _ h1 h2]
    exact le_max_left _ _

theorem pushPlateau_neg (m : List Point) (t : ℚ) (z : List Sample) :
    pushPlateau (m.map Point.neg) t (negs z) = (pushPlateau m t z).map fun l => negs l := by
  cases m with
  | nil => rfl
  | cons p m =>
    cases z with
    | nil => rfl
    | cons b z =>
      simp only [pushPlateau, List.map_cons, Sample.neg_time, Point.neg_value, Except.map]
      split_ifs
      · simp [Sample.neg]
      · simp

theorem plateauMinMLoop_neg (a : ℚ) : ∀ (n : ℕ) (m is : List Point) (z : List Sample) (t : ℚ)
    (c d : Bool), plateauMinMLoop a n (m.map Point.neg) (is.map Point.neg) (negs z) t c d =
      (plateauMaxMLoop a n m is z t c d).map fun l => negs l
  | 0, _, _, _, _, _, _ => rfl
  | n + 1, m, is, z, t, c, d => by
    rw [plateauMinMLoop.eq_def, plateauMaxMLoop.eq_def]
    simp only [popFront_neg]
    cases popFront d m with
    | error f => rfl
    | ok m1 =>
      simp only [Except.map, bind, Except.bind, enterMin_neg]
      cases enterMax c m1 is with
      | error f => rfl
      | ok r =>
        obtain ⟨m2, is2⟩ := r
        simp only [pushPlateau_neg]
        cases pushPlateau m2 t z with
        | error f => rfl
        | ok z2 =>
          simp only [Except.map]
          cases m2 with
          | nil =>
            cases is2 with
            | nil => rfl
            | cons i is2 => exact plateauMinMLoop_neg a n [] (i :: is2) _ _ _ _
          | cons p m2 =>
            cases is2 with
            | nil => exact plateauMinMLoop_neg a n (p :: m2) [] _ _ _ _
            | cons i is2 =>
              have h := fun z t c d => plateauMinMLoop_neg a n (p :: m2) (i :: is2) z t c d
              simp only [List.map_cons] at h ⊢
              simp only [Point.neg_time]
              split_ifs
              · exact h z2 _ _ _
              · exact h z2 _ _ _
              · exact h z2 _ _ _

theorem plateauMinM_not (B : ℚ) (x : Signal) (a : ℚ) :
    plateauMinM B (computeNot x) a = (plateauMaxM B x a).map computeNot := by
  unfold plateauMinM plateauMaxM
  rw [computeNot_samples]
  cases hx : x.samples with
  | nil => rfl
  | cons f l =>
    have hb : (computeNot x).beginTime = x.beginTime := rfl
    have he : (computeNot x).endTime = x.endTime := rfl
    simp only [List.map_cons, hb, he]
    have hpk := peaksMin_neg (f :: l).reverse x.endTime (-B) []
    rw [neg_neg, List.map_nil, show negs (f :: l).reverse = (f.neg :: negs l).reverse by simp] at hpk
    rw [hpk]
    have hini := initMin_neg (x.beginTime + a)
      (⟨f.time, f.value⟩ :: peaksMax (f :: l).reverse x.endTime (-B) []) []
    simp only [List.map_cons, List.map_nil] at hini
    have hfp : (⟨f.neg.time, f.neg.value⟩ : Point) = Point.neg ⟨f.time, f.value⟩ := by
      simp [Point.neg]
    rw [hfp, hini]
    cases initMax (x.beginTime + a) []
        (⟨f.time, f.value⟩ :: peaksMax (f :: l).reverse x.endTime (-B) []) with
    | error g => rfl
    | ok r =>
      obtain ⟨m, is⟩ := r
      simp only [Except.map, bind, Except.bind]
      cases m with
      | nil => cases is <;> rfl
      | cons k m =>
        cases is with
        | nil => rfl
        | cons i is =>
          have hlp := plateauMinMLoop_neg a
            (2 * ((⟨f.time, f.value⟩ :: peaksMax (f :: l).reverse x.endTime (-B) [] :
              List Point)).length + 2) (k :: m) (i :: is) [⟨x.beginTime, k.value, 0⟩] x.beginTime
            (decide (i.time = x.beginTime + a)) false
          simp only [List.map_cons, List.map_nil] at hlp ⊢
          have hk : (⟨x.beginTime, k.value, 0⟩ : Sample).neg = ⟨x.beginTime, -k.value, 0⟩ := by
            simp [Sample.neg]
          rw [hk] at hlp
          simp only [List.length_cons, List.length_map, Point.neg_time, Point.neg_value] at hlp ⊢
          rw [hlp]
          cases plateauMaxMLoop a
              (2 * ((peaksMax (f :: l).reverse x.endTime (-B) []).length + 1) + 2)
              (k :: m) (i :: is) [⟨x.beginTime, k.value, 0⟩] x.beginTime
              (decide (i.time = x.beginTime + a)) false with
          | error g => rfl
          | ok z => simp [Except.map, computeNot_eq, List.map_reverse]

/-- De Morgan for the bounded members, as computed, faults included. -/
theorem computeBoundedGloballyM_not (B : ℚ) (old x : Signal) (a : ℚ) :
    computeBoundedGloballyM B (computeNot old) (computeNot x) a =
      (computeBoundedEventuallyM B old x a).map computeNot := by
  unfold computeBoundedGloballyM computeBoundedEventuallyM
  have hb : (computeNot x).beginTime = x.beginTime := rfl
  have he : (computeNot x).endTime = x.endTime := rfl
  by_cases hn : x.samples = []
  · rw [if_pos hn, if_pos (by rw [computeNot_samples, hn]; rfl)]
    simp [Except.map, computeNot_eq]
  rw [if_neg hn, if_neg (by rw [computeNot_samples]; simpa using hn)]
  have hr := resize_not Signal.empty (x.beginTime + a) (x.endTime + a) (-B)
  rw [neg_neg, show computeNot Signal.empty = Signal.empty from rfl] at hr
  rw [plateauMinM_not, hb, he]
  cases plateauMaxM B x a with
  | error f => rfl
  | ok z1 =>
    simp only [Except.map, bind, Except.bind, hr]
    cases resize Signal.empty (x.beginTime + a) (x.endTime + a) (-B) with
    | error f => rfl
    | ok z2 =>
      simp only [Except.map, shift_not, computeAndM_not]
      cases computeOrM (shift z2 (-a)) z1 with
      | error f => rfl
      | ok z3 =>
        simp only [Except.map, computeAndM_not]
        cases computeOrM x z3 with
        | error f => rfl
        | ok z => exact simplify_not z

theorem computeBoundedGloballyM_le {x : Signal} {B a : ℚ} (old : Signal) (hx : WF0 x)
    (hg : SInc x.samples ∨ CG x) (ha : 0 < a) (hab : x.beginTime + a ≤ x.endTime)
    (h0 : 0 ≤ x.beginTime + a)
    (hB : ∀ σ, pl x.beginTime ≤ σ → σ ≤ pl x.endTime → x.v σ ≤ B) :
    ∃ z, computeBoundedGloballyM B old x a = .ok z ∧ z.beginTime = x.beginTime ∧
      z.endTime = x.endTime ∧ WF z ∧
      ∀ τ, pl x.beginTime ≤ τ → τ ≤ mi x.endTime → z.v τ ≤ x.v τ := by
  obtain ⟨z, h1, h2, h3, h4, h5⟩ := computeBoundedEventuallyM_ge (B := B) (a := a) (computeNot old)
    hx.not (hg.imp (fun h => by rw [computeNot_samples]; exact h.negs) CG.not) ha hab h0
    (fun σ c d => by rw [v_not]; linarith [hB σ c d])
  have e := computeBoundedGloballyM_not B (computeNot old) (computeNot x) a
  rw [computeNot_computeNot, computeNot_computeNot, h1] at e
  refine ⟨computeNot z, e, h2, h3, h4.not, fun τ c d => ?_⟩
  have := h5 τ c d
  rw [v_not] at this ⊢
  linarith

/-- Outside `0 < a ≤ duration` the plateau is undefined behaviour. -/
theorem plateauMaxM_ub {x : Signal} {B a : ℚ} (hx : WF0 x)
    (h : a ≤ 0 ∨ x.endTime < x.beginTime + a) : plateauMaxM B x a = .error .ub := by
  obtain ⟨f, l, hl, hfb⟩ := hx.exists_cons
  unfold plateauMaxM
  have hpt := pk_times (B := B) (e := x.endTime) f l (hl ▸ hx.sorted) (hl ▸ hx.le_end)
  rw [hl]
  simp only [bind, Except.bind]
  rcases h with h | h
  · rw [initMax, if_neg (by show ¬ f.time < _; rw [hfb]; linarith)]
  · rw [initMax_past]
    intro p hp
    rcases List.mem_cons.1 hp with rfl | hp
    · show f.time < _
      exact (hx.le_end f (by simp [hl])).trans_lt h
    · rw [peaksMax_eq] at hp
      rcases hpt.2 p hp with h' | ⟨q, hq, h'⟩
      · rw [h']; exact h
      · rw [h']; exact (hx.le_end q (by simp [hl, hq])).trans_lt h

theorem computeBoundedEventuallyM_ub {x : Signal} {B a : ℚ} (old : Signal) (hx : WF0 x)
    (h : a ≤ 0 ∨ x.endTime < x.beginTime + a) :
    computeBoundedEventuallyM B old x a = .error .ub := by
  unfold computeBoundedEventuallyM
  rw [if_neg hx.ne, plateauMaxM_ub hx h]
  rfl

theorem computeBoundedGloballyM_ub {x : Signal} {B a : ℚ} (old : Signal) (hx : WF0 x)
    (h : a ≤ 0 ∨ x.endTime < x.beginTime + a) :
    computeBoundedGloballyM B old x a = .error .ub := by
  have e := computeBoundedGloballyM_not B (computeNot old) (computeNot x) a
  rw [computeNot_computeNot, computeNot_computeNot, computeBoundedEventuallyM_ub _ hx.not h] at e
  exact e

end STLRom
