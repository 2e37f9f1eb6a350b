import Verif.Proofs.Bounded

/-!
# Negation duality of the sliding window; bounded `globally`
-/

namespace STLRom
namespace Signal

/-- A point with its value negated. -/
def Point.neg (p : Point) : Point := ⟨p.time, -p.value⟩

@[simp] theorem Point.neg_time (p : Point) : p.neg.time = p.time := by cases p; rfl
@[simp] theorem Point.neg_value (p : Point) : p.neg.value = -p.value := by cases p; rfl

theorem fmin_neg (a b : ℚ) : fmin (-a) (-b) = -fmax a b := by
  rw [fmin_eq, fmax_eq, min_neg_neg]

theorem peaksMin_neg : ∀ (l : List Sample) (t v : ℚ) (y : List Point),
    peaksMin (negs l) t (-v) (y.map Point.neg) = (peaksMax l t v y).map Point.neg
  | [], _, _, _ => rfl
  | j :: js, t, v, y => by
    simp only [List.map_cons, peaksMin, peaksMax, Sample.neg_time, Sample.neg_value,
      Sample.neg_valueAt, fmin_neg]
    exact peaksMin_neg js j.time j.value (⟨t, fmax v (j.valueAt t)⟩ :: y)

theorem popMin_neg (v : ℚ) (m : List Point) :
    popMin (-v) (m.map Point.neg) = (popMax v m).map Point.neg := by
  unfold popMin popMax
  rw [← List.map_reverse, List.dropWhile_map, List.map_reverse]
  have : ((fun p : Point => decide (-v ≤ p.value)) ∘ Point.neg) = fun p => decide (p.value ≤ v) := by
    funext p
    simp
  rw [this]

theorem initMin_neg (lim : ℚ) : ∀ (is m : List Point),
    initMin lim (m.map Point.neg) (is.map Point.neg) =
      (initMax lim m is).map fun r => (r.1.map Point.neg, r.2.map Point.neg)
  | [], m => rfl
  | i :: is, m => by
    simp only [List.map_cons, initMin, initMax, Point.neg_time, Point.neg_value]
    split_ifs
    · have := initMin_neg lim is (popMax i.value m ++ [i])
      rw [popMin_neg, ← this]
      simp
    · rfl

theorem popFront_neg (c : Bool) (m : List Point) :
    popFront c (m.map Point.neg) = (popFront c m).map (List.map Point.neg) := by
  unfold popFront
  cases c <;> cases m <;> rfl

theorem enterMin_neg (c : Bool) (m is : List Point) :
    enterMin c (m.map Point.neg) (is.map Point.neg) =
      (enterMax c m is).map fun r => (r.1.map Point.neg, r.2.map Point.neg) := by
  unfold enterMin enterMax
  cases c
  · rfl
  · cases is with
    | nil => rfl
    | cons i is =>
      simp only [List.map_cons, if_true, Point.neg_value, popMin_neg, Except.map]
      simp

theorem frontVal_neg (v : ℚ) (m : List Point) : frontVal (-v) (m.map Point.neg) = -frontVal v m := by
  cases m <;> rfl

theorem plateauMinLoop_neg (B a : ℚ) : ∀ (n : ℕ) (m is : List Point) (z : List Sample) (t : ℚ)
    (c d : Bool), plateauMinLoop B a n (m.map Point.neg) (is.map Point.neg) (negs z) t c d =
      (plateauMaxLoop B a n m is z t c d).map fun l => negs l
  | 0, _, _, _, _, _, _ => rfl
  | n + 1, m, is, z, t, c, d => by
    rw [plateauMinLoop.eq_def, plateauMaxLoop.eq_def]
    simp only [popFront_neg]
    cases popFront d m with
    | error f => rfl
    | ok m1 =>
      simp only [Except.map, bind, Except.bind, enterMin_neg]
      cases enterMax c m1 is with
      | error f => rfl
      | ok r =>
        obtain ⟨m2, is2⟩ := r
        simp only
        have hz : (⟨t, frontVal B (m2.map Point.neg), 0⟩ :: negs z : List Sample) =
            negs (⟨t, frontVal (-B) m2, 0⟩ :: z) := by
          have := frontVal_neg (-B) m2
          rw [neg_neg] at this
          rw [this]
          simp [Sample.neg]
        rw [hz]
        cases m2 with
        | nil =>
          cases is2 with
          | nil => rfl
          | cons i is2 => exact plateauMinLoop_neg B a n [] (i :: is2) _ _ _ _
        | cons p m2 =>
          cases is2 with
          | nil => exact plateauMinLoop_neg B a n (p :: m2) [] _ _ _ _
          | cons i is2 =>
            have h := fun z t c d => plateauMinLoop_neg B a n (p :: m2) (i :: is2) z t c d
            simp only [List.map_cons] at h ⊢
            simp only [Point.neg_time]
            split_ifs
            · exact h (⟨t, frontVal (-B) (p :: m2), 0⟩ :: z) _ _ _
            · exact h (⟨t, frontVal (-B) (p :: m2), 0⟩ :: z) _ _ _
            · exact h (⟨t, frontVal (-B) (p :: m2), 0⟩ :: z) _ _ _

theorem plateauMin_not (B : ℚ) (x : Signal) (a : ℚ) :
    plateauMin B (computeNot x) a = (plateauMax B x a).map computeNot := by
  unfold plateauMin plateauMax
  rw [computeNot_samples]
  cases hx : x.samples with
  | nil => rfl
  | cons f l =>
    have hb : (computeNot x).beginTime = x.beginTime := rfl
    have he : (computeNot x).endTime = x.endTime := rfl
    simp only [List.map_cons, hb, he]
    have hpk := peaksMin_neg (f :: l).reverse x.endTime (-B) []
    rw [neg_neg, List.map_nil, show negs (f :: l).reverse = (f.neg :: negs l).reverse by simp] at hpk
    rw [hpk]
    have hini := initMin_neg (x.beginTime + a)
      (⟨f.time, f.value⟩ :: peaksMax (f :: l).reverse x.endTime (-B) []) []
    simp only [List.map_cons, List.map_nil] at hini
    have hfp : (⟨f.neg.time, f.neg.value⟩ : Point) = Point.neg ⟨f.time, f.value⟩ := by
      simp [Point.neg]
    rw [hfp, hini]
    cases initMax (x.beginTime + a) []
        (⟨f.time, f.value⟩ :: peaksMax (f :: l).reverse x.endTime (-B) []) with
    | error g => rfl
    | ok r =>
      obtain ⟨m, is⟩ := r
      simp only [Except.map, bind, Except.bind]
      cases is with
      | nil => rfl
      | cons i is =>
        have hlp := plateauMinLoop_neg B a
          (2 * ((⟨f.time, f.value⟩ :: peaksMax (f :: l).reverse x.endTime (-B) [] :
            List Point)).length + 2) m (i :: is) [] x.beginTime
          (decide (i.time = x.beginTime + a)) false
        simp only [List.map_cons, List.map_nil] at hlp ⊢
        simp only [List.length_cons, List.length_map, Point.neg_time] at hlp ⊢
        rw [hlp]
        cases plateauMaxLoop B a (2 * ((peaksMax (f :: l).reverse x.endTime (-B) []).length + 1) + 2)
            m (i :: is) [] x.beginTime (decide (i.time = x.beginTime + a)) false with
        | error g => rfl
        | ok z =>
          simp only [Except.map]
          cases z with
          | nil => rfl
          | cons p z =>
            simp only [List.map_cons, Sample.neg_time, computeNot_eq]
            split_ifs
            · simp [List.map_reverse]
            · simp [List.map_reverse]

theorem trimFront_neg (s : ℚ) : ∀ (l : List Sample) (f : Sample),
    trimFront s f.neg (negs l) = ((trimFront s f l).1.neg, negs (trimFront s f l).2)
  | [], _ => rfl
  | p :: l, f => by
    simp only [List.map_cons, trimFront, Sample.neg_time]
    split_ifs
    · exact trimFront_neg s l p
    · rfl

theorem trimBack_neg (t : ℚ) (l : List Sample) : trimBack t (negs l) = negs (trimBack t l) := by
  unfold trimBack
  rw [← List.map_reverse, List.dropWhile_map]
  have : ((fun p : Sample => decide (t < p.time)) ∘ Sample.neg) = fun p => decide (t < p.time) := by
    funext p
    simp
  rw [this]
  simp

theorem resizeFront_not (x : Signal) (s : ℚ) :
    resizeFront (computeNot x) s = (resizeFront x s).map computeNot := by
  unfold resizeFront
  have hb : (computeNot x).beginTime = x.beginTime := rfl
  have he : (computeNot x).endTime = x.endTime := rfl
  have hz : Sample.zero = Sample.zero.neg := by simp [Sample.zero, Sample.neg]
  simp only [hb, he, computeNot_samples]
  by_cases h1 : s < x.beginTime
  · rw [if_pos h1, if_pos h1]
    cases x.samples with
    | nil => rfl
    | cons p l =>
      simp only [List.map_cons, Except.map, computeNot_eq]
      simp [Sample.neg]
  · rw [if_neg h1, if_neg h1, hz, trimFront_neg, ← hz]
    rcases trimFront s Sample.zero x.samples with ⟨f, l⟩
    cases l with
    | nil =>
      simp only [List.map_nil, Except.map, computeNot_eq]
      simp only [List.map_cons, List.map_nil, Sample.neg_valueAt]
      simp [Sample.neg]
    | cons p r =>
      simp only [List.map_cons, Sample.neg_time]
      split_ifs
      · simp only [Except.map, computeNot_eq, List.map_cons, Sample.neg_valueAt]
        simp [Sample.neg]
      · simp [Except.map, computeNot_eq]

theorem resizeBack_not (x : Signal) (s t v : ℚ) :
    resizeBack (computeNot x) s t (-v) = (resizeBack x s t v).map computeNot := by
  unfold resizeBack
  have he : (computeNot x).endTime = x.endTime := rfl
  simp only [he, computeNot_samples, getLast?_negs]
  split_ifs with h1
  · cases x.samples.getLast? with
    | none => rfl
    | some b =>
      simp only [Option.map_some, Sample.neg_value, Sample.neg_derivative, ne_eq, neg_inj,
        neg_eq_zero]
      split_ifs <;> simp [bind, Except.bind, Except.map, computeNot_eq]
      · simp [Sample.neg]
      · split_ifs <;> simp [Sample.neg]
  · simp only [trimBack_neg, bind, Except.bind, Except.map, computeNot_eq]
    simp only [List.map_eq_nil_iff]
    split_ifs <;> simp [Sample.neg]

theorem resize_not (x : Signal) (s t v : ℚ) :
    resize (computeNot x) s t (-v) = (resize x s t v).map computeNot := by
  unfold resize
  by_cases h : t < s - tol
  · rw [if_pos h, if_pos h]; rfl
  · rw [if_neg h, if_neg h]
    rw [resizeFront_not]
    cases resizeFront x s with
    | error f => rfl
    | ok y =>
      simp only [Except.map, bind, Except.bind]
      exact resizeBack_not y s _ v

theorem shift_not (x : Signal) (a : ℚ) : shift (computeNot x) a = computeNot (shift x a) := by
  simp only [shift, computeNot_eq, List.map_map]
  rfl

/-- De Morgan for the bounded operators, as computed: the same run step by step, faults
included. -/
theorem computeBoundedGlobally_not (B : ℚ) (x : Signal) (a : ℚ) :
    computeBoundedGlobally B (computeNot x) a = (computeBoundedEventually B x a).map computeNot := by
  unfold computeBoundedGlobally computeBoundedEventually
  have hb : (computeNot x).beginTime = x.beginTime := rfl
  have he : (computeNot x).endTime = x.endTime := rfl
  have hr := resize_not x (x.beginTime + a) (x.endTime + a) (-B)
  rw [neg_neg] at hr
  rw [plateauMin_not, hb, he]
  cases plateauMax B x a with
  | error f => rfl
  | ok z1 =>
    simp only [Except.map, bind, Except.bind, hr]
    cases resize x (x.beginTime + a) (x.endTime + a) (-B) with
    | error f => rfl
    | ok z2 =>
      simp only [Except.map, shift_not, computeAnd_not]
      cases computeOr (shift z2 (-a)) z1 with
      | error f => rfl
      | ok z3 =>
        simp only [Except.map, computeAnd_not]
        cases computeOr x z3 with
        | error f => rfl
        | ok z => exact simplify_not z

end Signal

open Signal

theorem KeepsSlope.not {x : Signal} {s : ℚ} (h : KeepsSlope x s) : KeepsSlope (computeNot x) s := by
  rcases h with h | ⟨p, hp, h⟩ | h
  · exact Or.inl h
  · exact Or.inr (Or.inl ⟨p.neg, by rw [computeNot_samples]; exact List.mem_map_of_mem hp, by simpa⟩)
  · refine Or.inr (Or.inr fun p hp => ?_)
    rw [computeNot_samples, getLast?_negs, Option.map_eq_some_iff] at hp
    obtain ⟨q, hq, rfl⟩ := hp
    rw [Sample.neg_derivative, h q hq, neg_zero]

theorem SInc.negs {l : List Sample} (h : SInc l) : SInc (l.map Sample.neg) := by
  unfold SInc at *
  rw [List.pairwise_map]
  exact h.imp (by simp)

/-- The bounded `globally` over the window `[0,a]`. -/
theorem computeBoundedGlobally_spec {x : Signal} {B a : ℚ} (hx : WF0 x)
    (hg : SInc x.samples ∨ CG x) (ha : 0 < a) (hab : x.beginTime + a < x.endTime)
    (hk : KeepsSlope x (x.beginTime + a))
    (hB : ∀ σ, pl x.beginTime ≤ σ → σ ≤ pl x.endTime → x.v σ ≤ B) :
    ∃ z, computeBoundedGlobally B x a = .ok z ∧ z.beginTime = x.beginTime ∧
      z.endTime = x.endTime ∧ WF z ∧
      (∀ τ, pl x.beginTime ≤ τ → τ ≤ mi x.endTime →
        Bot x.v τ (min (τ.shift a) (pl x.endTime)) (z.v τ)) ∧
      z.v (pl x.endTime) = z.v (mi x.endTime) ∧ (CG x → CG z) := by
  obtain ⟨z, h1, h2, h3, h4, h5, h6, h7⟩ := computeBoundedEventually_spec (B := B) hx.not
    (hg.imp (fun h => by rw [computeNot_samples]; exact h.negs) CG.not) ha hab hk.not
    (fun σ a b => by rw [v_not]; exact neg_le_neg (hB σ a b))
  refine ⟨computeNot z, ?_, h2, h3, h4.not, ?_, ?_, fun hc => (h7 hc.not).not⟩
  · have := computeBoundedGlobally_not B (computeNot x) a
    rw [computeNot_computeNot, h1] at this
    exact this
  · intro τ a b
    have := h5 τ a b
    rw [v_not, ← top_neg, neg_neg]
    have e : (computeNot x).v = fun σ => -x.v σ := by funext σ; exact v_not x σ
    rw [e] at this
    exact this
  · rw [v_not, v_not]
    exact congrArg Neg.neg h6

end STLRom
