import Verif.Proofs.Timed
import Verif.Proofs.Until
import Verif.Proofs.History

/-!
# Moving signals in time and scaling their values

Every operation on signals gives, on operands moved by `c` in time and multiplied by `k > 0`, the
result moved and multiplied in the same way, faults included.
-/

namespace STLRom

/-- A sample `c` later, with value and slope multiplied by `k`. -/
def Sample.af (c k : ℚ) (p : Sample) : Sample := ⟨p.time + c, k * p.value, k * p.derivative⟩

@[simp] theorem Sample.af_time (c k : ℚ) (p : Sample) : (p.af c k).time = p.time + c := by cases p; rfl
@[simp] theorem Sample.af_value (c k : ℚ) (p : Sample) : (p.af c k).value = k * p.value := by cases p; rfl
@[simp] theorem Sample.af_derivative (c k : ℚ) (p : Sample) : (p.af c k).derivative = k * p.derivative := by
  cases p; rfl
@[simp] theorem Sample.af_valueAt (c k : ℚ) (p : Sample) (t : ℚ) :
    (p.af c k).valueAt (t + c) = k * p.valueAt t := by
  simp [Sample.af, Sample.valueAt]; ring

theorem qdiv_mul {k : ℚ} (hk : 0 < k) (a b : ℚ) : qdiv (k * a) (k * b) = qdiv a b := by
  unfold qdiv
  by_cases hb : b = 0
  · simp [hb]
  · rw [if_neg hb, if_neg (mul_ne_zero hk.ne' hb), mul_div_mul_left _ _ hk.ne']

theorem Sample.af_timeIntersect {c k : ℚ} (hk : 0 < k) (p q : Sample) :
    (p.af c k).timeIntersect (q.af c k) = (p.timeIntersect q).map (· + c) := by
  simp only [Sample.timeIntersect, af_value, af_derivative, af_time]
  have h1 : k * q.derivative - k * p.derivative = k * (q.derivative - p.derivative) := by ring
  have h2 : k * p.value - k * q.value + k * q.derivative * (q.time + c) - k * p.derivative * (p.time + c)
      = k * (p.value - q.value + q.derivative * q.time - p.derivative * p.time +
        c * (q.derivative - p.derivative)) := by ring
  rw [h1, h2, qdiv_mul hk]
  unfold qdiv
  by_cases h : q.derivative - p.derivative = 0
  · rw [if_pos h, if_pos h]; rfl
  · rw [if_neg h, if_neg h]
    simp only [Except.map, Except.ok.injEq]
    rw [add_div, mul_div_cancel_right₀ _ h]

theorem af_mk (c k t v d : ℚ) : (⟨t + c, k * v, k * d⟩ : Sample) = (⟨t, v, d⟩ : Sample).af c k := rfl

theorem af_mk0 (c k t v : ℚ) : (⟨t + c, k * v, 0⟩ : Sample) = (⟨t, v, 0⟩ : Sample).af c k := by
  simp [Sample.af]

/-- All samples moved and multiplied. -/
abbrev afl (c k : ℚ) (l : List Sample) : List Sample := l.map (Sample.af c k)

namespace Signal

/-- A signal moved and multiplied. -/
def afs (c k : ℚ) (x : Signal) : Signal := ⟨afl c k x.samples, x.beginTime + c, x.endTime + c⟩

variable {c k : ℚ}

theorem segmentOrLoop_af (hk : 0 < k) (i : Sample) : ∀ (js z : List Sample) (t : ℚ) (b : Bool),
    segmentOrLoop (i.af c k) (afl c k z) (t + c) b (afl c k js) =
      (segmentOrLoop i z t b js).map fun r => (afl c k r.1, r.2.1 + c, r.2.2.1, afl c k r.2.2.2) := by
  intro js
  induction js with
  | nil => intro z t b; rfl
  | cons j js ih =>
    intro z t b
    have hpend : ∀ (b : Bool) (t : ℚ), (if b = true then
          (⟨t + c, k * i.valueAt t, k * i.derivative⟩ : Sample) :: afl c k z else afl c k z) =
        afl c k (if b = true then (⟨t, i.valueAt t, i.derivative⟩ : Sample) :: z else z) := by
      intro b t
      cases b <;> simp [Sample.af]
    simp only [List.map_cons, segmentOrLoop, Sample.af_time, Sample.af_valueAt,
      Sample.af_value, Sample.af_derivative, add_lt_add_iff_right, mul_lt_mul_iff_right₀ hk,
      mul_right_inj' hk.ne', Sample.af_timeIntersect hk, hpend, gt_iff_lt]
    simp only [af_mk, ← List.map_cons]
    cases i.timeIntersect j <;> split_ifs <;>
      (try simp only [bind, Except.bind, Except.map, Sample.af_valueAt, af_mk, ih, ← List.map_cons])

theorem segmentOrLast_af (hk : 0 < k) (i j : Sample) (z : List Sample) (t : ℚ) (b : Bool) :
    segmentOrLast (i.af c k) (afl c k z) (t + c) b (j.af c k) = (segmentOrLast i z t b j).map (afl c k) := by
  have hpend : ∀ (b : Bool) (t : ℚ), (if b = true then
        (⟨t + c, k * i.valueAt t, k * i.derivative⟩ : Sample) :: afl c k z else afl c k z) =
      afl c k (if b = true then (⟨t, i.valueAt t, i.derivative⟩ : Sample) :: z else z) := by
    intro b t
    cases b <;> simp [Sample.af]
  simp only [segmentOrLast, Sample.af_time, Sample.af_valueAt,
    Sample.af_value, Sample.af_derivative, mul_lt_mul_iff_right₀ hk,
    mul_right_inj' hk.ne', Sample.af_timeIntersect hk, hpend, gt_iff_lt]
  simp only [af_mk, ← List.map_cons]
  cases i.timeIntersect j <;> split_ifs <;>
    (try simp only [bind, Except.bind, Except.map, Sample.af_valueAt, af_mk, ← List.map_cons])

theorem segmentOr_af (hk : 0 < k) (i : Sample) (z js : List Sample) (t : ℚ) :
    segmentOr (afl c k z) (i.af c k) (t + c) (afl c k js) =
      (segmentOr z i t js).map fun r => (afl c k r.1, afl c k r.2) := by
  simp only [segmentOr, segmentOrLoop_af hk]
  cases segmentOrLoop i z t false js with
  | error f => rfl
  | ok r =>
    obtain ⟨z, t, b, js⟩ := r
    cases js with
    | nil => rfl
    | cons j js =>
      simp only [Except.map, bind, Except.bind, List.map_cons, segmentOrLast_af hk]
      cases segmentOrLast i z t b j <;> rfl

theorem partialOr_af (hk : 0 < k) (s : ℚ) : ∀ (is z js : List Sample) (t : ℚ),
    partialOr (s + c) (afl c k z) (afl c k is) (afl c k js) (t + c) =
      (partialOr s z is js t).map (afl c k) := by
  intro is
  induction is with
  | nil => intro z js t; rfl
  | cons i is ih =>
    intro z js t
    simp only [List.map_cons, partialOr, Sample.af_time, add_lt_add_iff_right, add_left_inj,
      Sample.af_valueAt, Sample.af_derivative, af_mk]
    split_ifs with h1 h2
    · rw [segmentOr_af hk]
      cases segmentOr z i t js with
      | error f => rfl
      | ok r =>
        obtain ⟨z', js'⟩ := r
        cases js' with
        | nil => rfl
        | cons j js' =>
          simp only [Except.map, bind, Except.bind, List.map_cons, Sample.af_time, add_left_inj]
          split_ifs with h3
          · rw [ih]; rfl
          · have := ih z' (j :: js') i.time
            rw [show afl c k (j :: js') = j.af c k :: List.map (Sample.af c k) js' from rfl] at this
            rw [this]; rfl
    · rw [segmentOr_af hk]
      cases segmentOr z i t js <;> simp [Except.map, bind, Except.bind]
    · rw [segmentOr_af hk]
      cases segmentOr z ⟨s, i.valueAt s, i.derivative⟩ t js <;>
        simp [Except.map, bind, Except.bind]

theorem getLast?_afl (l : List Sample) : (afl c k l).getLast? = l.getLast?.map (Sample.af c k) := by
  simp [List.getLast?_map]

theorem simplifyLoop_af (hk : 0 < k) (bt : ℚ) : ∀ (n : ℕ) (l : List Sample),
    simplifyLoop (bt + c) n (afl c k l) = (simplifyLoop bt n l).map (afl c k) := by
  intro n
  induction n with
  | zero =>
    intro l
    cases l with
    | nil => rfl
    | cons f r =>
      simp only [List.map_cons, simplifyLoop, Sample.af_time, add_left_inj]
      split_ifs <;> simp [Except.map]
  | succ n ih =>
    intro l
    cases l with
    | nil => rfl
    | cons f r =>
      simp only [List.map_cons, simplifyLoop, Sample.af_time, add_left_inj]
      split_ifs with h
      · simp [Except.map]
      · have hl := getLast?_afl (c := c) (k := k) (f :: r)
        rw [show afl c k (f :: r) = f.af c k :: List.map (Sample.af c k) r from rfl] at hl
        rw [hl]
        cases (f :: r).getLast? with
        | none => rfl
        | some b =>
          simp only [Option.map_some, Sample.af_valueAt, Sample.af_value, ne_eq, mul_right_inj' hk.ne',
            Sample.af_derivative]
          split_ifs with h2
          · rw [← ih]; simp
          · rw [← ih]

theorem simplify_af (hk : 0 < k) (x : Signal) : simplify (afs c k x) = (simplify x).map (afs c k) := by
  rcases x with ⟨l, b, e⟩
  cases l with
  | nil => rfl
  | cons p r =>
    have h := simplifyLoop_af (c := c) hk b (r.length + 1) (r ++ [p])
    simp only [List.map_append, List.map_cons, List.map_nil] at h
    have hs : (afs c k ⟨p :: r, b, e⟩) = ⟨p.af c k :: afl c k r, b + c, e + c⟩ := rfl
    simp only [hs, simplify, List.length_map, h]
    cases simplifyLoop b (r.length + 1) (r ++ [p]) with
    | error f => rfl
    | ok m =>
      simp only [Except.map, bind, Except.bind, getLast?_afl]
      cases m.getLast? with
      | none => rfl
      | some q =>
        simp only [Option.map_some, Sample.af_time, Sample.af_valueAt, add_lt_add_iff_right]
        split_ifs <;> simp [afs, Sample.af]

theorem skip_af (e : ℚ) : ∀ l : List Sample, skip (e + c) (afl c k l) = (skip e l).map (afl c k) := by
  intro l
  induction l with
  | nil => rfl
  | cons p l ih =>
    simp only [List.map_cons, skip, Sample.af_time, add_le_add_iff_right]
    split_ifs
    · exact ih
    · rfl

theorem skipGuarded_af (e : ℚ) :
    ∀ l : List Sample, skipGuarded (e + c) (afl c k l) = (skipGuarded e l).map (afl c k) := by
  intro l
  induction l with
  | nil => rfl
  | cons p l ih =>
    cases l with
    | nil => rfl
    | cons q l =>
      simp only [List.map_cons, skipGuarded, Sample.af_time, add_le_add_iff_right] at ih ⊢
      split_ifs
      · exact ih
      · rfl

theorem fmax_af (a b : ℚ) : fmax (a + c) (b + c) = fmax a b + c := by
  rw [fmax_eq, fmax_eq, max_add_add_right]

theorem fmin_af (a b : ℚ) : fmin (a + c) (b + c) = fmin a b + c := by
  rw [fmin_eq, fmin_eq, min_add_add_right]

theorem computeOrM_af (hk : 0 < k) (x y : Signal) :
    computeOrM (afs c k x) (afs c k y) = (computeOrM x y).map (afs c k) := by
  simp only [computeOrM, afs, ← List.map_reverse, fmax_af, fmin_af, skipGuarded_af]
  cases skipGuarded (fmin x.endTime y.endTime) x.samples.reverse with
  | error f => rfl
  | ok is =>
    simp only [Except.map, bind, Except.bind]
    cases skipGuarded (fmin x.endTime y.endTime) y.samples.reverse with
    | error f => rfl
    | ok js =>
      simp only
      have := partialOr_af (c := c) hk (fmax x.beginTime y.beginTime) is [] js (fmin x.endTime y.endTime)
      rw [show afl c k ([] : List Sample) = [] from rfl] at this
      rw [this]
      cases partialOr (fmax x.beginTime y.beginTime) [] is js (fmin x.endTime y.endTime) with
      | error f => rfl
      | ok z =>
        simp only [Except.map]
        exact simplify_af hk ⟨z, _, _⟩

theorem computeOr_af (hk : 0 < k) (x y : Signal) :
    computeOr (afs c k x) (afs c k y) = (computeOr x y).map (afs c k) := by
  simp only [computeOr, afs, ← List.map_reverse, fmax_af, fmin_af, skip_af]
  cases skip (fmin x.endTime y.endTime) x.samples.reverse with
  | error f => rfl
  | ok is =>
    simp only [Except.map, bind, Except.bind]
    cases skip (fmin x.endTime y.endTime) y.samples.reverse with
    | error f => rfl
    | ok js =>
      simp only
      have := partialOr_af (c := c) hk (fmax x.beginTime y.beginTime) is [] js (fmin x.endTime y.endTime)
      rw [show afl c k ([] : List Sample) = [] from rfl] at this
      rw [this]
      cases partialOr (fmax x.beginTime y.beginTime) [] is js (fmin x.endTime y.endTime) with
      | error f => rfl
      | ok z =>
        simp only [Except.map]
        exact simplify_af hk ⟨z, _, _⟩

theorem not_af (x : Signal) : computeNot (afs c k x) = afs c k (computeNot x) := by
  simp [computeNot, afs, Sample.af]

theorem map_map' {α β γ : Type} (m : M α) (f : α → β) (g : β → γ) : (m.map f).map g = m.map (g ∘ f) := by
  cases m <;> rfl

theorem computeAndM_af (hk : 0 < k) (x y : Signal) :
    computeAndM (afs c k x) (afs c k y) = (computeAndM x y).map (afs c k) := by
  have h := computeAndM_not (computeNot (afs c k x)) (computeNot (afs c k y))
  have h' := computeAndM_not (computeNot x) (computeNot y)
  rw [computeNot_computeNot, computeNot_computeNot] at h h'
  rw [h, h', not_af, not_af, computeOrM_af hk, map_map', map_map']
  congr 1
  funext z
  exact not_af z

theorem computeAnd_af (hk : 0 < k) (x y : Signal) :
    computeAnd (afs c k x) (afs c k y) = (computeAnd x y).map (afs c k) := by
  have h := computeAnd_not (computeNot (afs c k x)) (computeNot (afs c k y))
  have h' := computeAnd_not (computeNot x) (computeNot y)
  rw [computeNot_computeNot, computeNot_computeNot] at h h'
  rw [h, h', not_af, not_af, computeOr_af hk, map_map', map_map']
  congr 1
  funext z
  exact not_af z

theorem mul_nonneg_iff' (hk : 0 < k) (d : ℚ) : 0 ≤ k * d ↔ 0 ≤ d := by
  constructor
  · intro h
    by_contra hd
    push Not at hd
    have := mul_neg_of_pos_of_neg hk hd
    linarith
  · exact fun h => mul_nonneg hk.le h

theorem partialEventually_af (hk : 0 < k) (s : ℚ) : ∀ (is z : List Sample) (t : ℚ) (b : Bool) (m : ℚ),
    partialEventually (s + c) (afl c k z) (afl c k is) (t + c) b (k * m) =
      (partialEventually s z is t b m).map fun r => (afl c k r.1, afl c k r.2) := by
  intro is
  induction is with
  | nil => intro z t b m; rfl
  | cons i is ih =>
    intro z t b m
    have hpend : (if b = true then (⟨t + c, k * m, 0⟩ : Sample) :: afl c k z else afl c k z) =
        afl c k (if b = true then (⟨t, m, 0⟩ : Sample) :: z else z) := by
      cases b <;> simp [Sample.af]
    have hq : k * m - k * i.value = k * (m - i.value) := by ring
    have ht : ∀ u d : ℚ, u + c + d = u + d + c := fun u d => by ring
    simp only [List.map_cons, partialEventually, Sample.af_time, Sample.af_valueAt,
      Sample.af_value, Sample.af_derivative, add_lt_add_iff_right, mul_lt_mul_iff_right₀ hk,
      mul_le_mul_iff_right₀ hk, mul_nonneg_iff' hk, hpend, hq, qdiv_mul hk, ht]
    simp only [af_mk, af_mk0, ← List.map_cons]
    cases qdiv (m - i.value) i.derivative <;> split_ifs <;>
      (try simp only [bind, Except.bind, Except.map, ih])

theorem computeEventually_af (hk : 0 < k) (B : ℚ) (x : Signal) :
    computeEventually (k * B) (afs c k x) = (computeEventually B x).map (afs c k) := by
  have h := partialEventually_af (c := c) hk x.beginTime x.samples.reverse [] x.endTime false (-B)
  rw [mul_neg, show afl c k ([] : List Sample) = [] from rfl] at h
  simp only [computeEventually, afs, ← List.map_reverse, h]
  cases partialEventually x.beginTime [] x.samples.reverse x.endTime false (-B) <;> rfl

theorem computeGlobally_af (hk : 0 < k) (B : ℚ) (x : Signal) :
    computeGlobally (k * B) (afs c k x) = (computeGlobally B x).map (afs c k) := by
  simp only [computeGlobally, not_af, computeEventually_af hk]
  cases computeEventually B (computeNot x) with
  | error f => rfl
  | ok z => simp only [Except.map, bind, Except.bind, not_af]

/-- A point moved and multiplied. -/
def Point.af (c k : ℚ) (p : Point) : Point := ⟨p.time + c, k * p.value⟩

@[simp] theorem Point.af_time (p : Point) : (p.af c k).time = p.time + c := by cases p; rfl
@[simp] theorem Point.af_value (p : Point) : (p.af c k).value = k * p.value := by cases p; rfl

theorem fmax_mul (hk : 0 < k) (a b : ℚ) : fmax (k * a) (k * b) = k * fmax a b := by
  unfold fmax
  simp only [mul_lt_mul_iff_right₀ hk]
  split_ifs <;> rfl

theorem peaksMax_af (hk : 0 < k) : ∀ (l : List Sample) (t v : ℚ) (y : List Point),
    peaksMax (afl c k l) (t + c) (k * v) (y.map (Point.af c k)) = (peaksMax l t v y).map (Point.af c k)
  | [], _, _, _ => rfl
  | j :: js, t, v, y => by
    simp only [List.map_cons, peaksMax, Sample.af_time, Sample.af_value,
      Sample.af_valueAt, fmax_mul hk]
    exact peaksMax_af hk js j.time j.value (⟨t, fmax v (j.valueAt t)⟩ :: y)

theorem popMax_af (hk : 0 < k) (v : ℚ) (m : List Point) :
    popMax (k * v) (m.map (Point.af c k)) = (popMax v m).map (Point.af c k) := by
  unfold popMax
  rw [← List.map_reverse, List.dropWhile_map, List.map_reverse]
  have : ((fun p : Point => decide (p.value ≤ k * v)) ∘ Point.af c k) = fun p => decide (p.value ≤ v) := by
    funext p
    simp [mul_le_mul_iff_right₀ hk]
  rw [this]

theorem initMax_af (hk : 0 < k) (lim : ℚ) : ∀ (is m : List Point),
    initMax (lim + c) (m.map (Point.af c k)) (is.map (Point.af c k)) =
      (initMax lim m is).map fun r => (r.1.map (Point.af c k), r.2.map (Point.af c k))
  | [], m => rfl
  | i :: is, m => by
    simp only [List.map_cons, initMax, Point.af_time, Point.af_value, add_lt_add_iff_right]
    split_ifs
    · have := initMax_af hk lim is (popMax i.value m ++ [i])
      rw [popMax_af hk, ← this]
      simp
    · rfl

theorem popFront_af (b : Bool) (m : List Point) :
    popFront b (m.map (Point.af c k)) = (popFront b m).map (List.map (Point.af c k)) := by
  unfold popFront
  cases b <;> cases m <;> rfl

theorem enterMax_af (hk : 0 < k) (b : Bool) (m is : List Point) :
    enterMax b (m.map (Point.af c k)) (is.map (Point.af c k)) =
      (enterMax b m is).map fun r => (r.1.map (Point.af c k), r.2.map (Point.af c k)) := by
  unfold enterMax
  cases b
  · rfl
  · cases is with
    | nil => rfl
    | cons i is =>
      simp only [List.map_cons, if_true, Point.af_value, popMax_af hk, Except.map]
      simp

theorem frontVal_af (v : ℚ) (m : List Point) : frontVal (k * v) (m.map (Point.af c k)) = k * frontVal v m := by
  cases m
  · rfl
  · simp [frontVal]

theorem plateauMaxLoop_af (hk : 0 < k) (B a : ℚ) : ∀ (n : ℕ) (m is : List Point) (z : List Sample) (t : ℚ)
    (b d : Bool), plateauMaxLoop (k * B) a n (m.map (Point.af c k)) (is.map (Point.af c k)) (afl c k z) (t + c) b d =
      (plateauMaxLoop B a n m is z t b d).map fun l => afl c k l
  | 0, _, _, _, _, _, _ => rfl
  | n + 1, m, is, z, t, b, d => by
    rw [plateauMaxLoop.eq_def, plateauMaxLoop.eq_def]
    simp only [popFront_af]
    cases popFront d m with
    | error f => rfl
    | ok m1 =>
      simp only [Except.map, bind, Except.bind, enterMax_af hk]
      cases enterMax b m1 is with
      | error f => rfl
      | ok r =>
        obtain ⟨m2, is2⟩ := r
        simp only
        have hz : (⟨t + c, frontVal (-(k * B)) (m2.map (Point.af c k)), 0⟩ :: afl c k z : List Sample) =
            afl c k (⟨t, frontVal (-B) m2, 0⟩ :: z) := by
          rw [← mul_neg, frontVal_af]
          simp [Sample.af]
        rw [hz]
        have ht : ∀ u : ℚ, u + c - a = u - a + c := fun u => by ring
        cases m2 with
        | nil =>
          cases is2 with
          | nil => rfl
          | cons i is2 =>
            have h := plateauMaxLoop_af hk B a n [] (i :: is2) (⟨t, frontVal (-B) [], 0⟩ :: z) (i.time - a) true false
            simp only [List.map_cons, List.map_nil] at h ⊢
            simp only [Point.af_time, ht]
            exact h
        | cons p m2 =>
          cases is2 with
          | nil =>
            have h := plateauMaxLoop_af hk B a n (p :: m2) [] (⟨t, frontVal (-B) (p :: m2), 0⟩ :: z) p.time false true
            simp only [List.map_cons, List.map_nil] at h ⊢
            simp only [Point.af_time]
            exact h
          | cons i is2 =>
            have h := fun z t b d => plateauMaxLoop_af hk B a n (p :: m2) (i :: is2) z t b d
            simp only [List.map_cons] at h ⊢
            simp only [Point.af_time, ht, add_left_inj, add_lt_add_iff_right]
            split_ifs
            · exact h (⟨t, frontVal (-B) (p :: m2), 0⟩ :: z) _ _ _
            · exact h (⟨t, frontVal (-B) (p :: m2), 0⟩ :: z) _ _ _
            · exact h (⟨t, frontVal (-B) (p :: m2), 0⟩ :: z) _ _ _

theorem plateauMax_af (hk : 0 < k) (B : ℚ) (x : Signal) (a : ℚ) :
    plateauMax (k * B) (afs c k x) a = (plateauMax B x a).map (afs c k) := by
  unfold plateauMax
  cases hx : x.samples with
  | nil => simp [afs, hx, Except.map]
  | cons f l =>
    simp only [afs, hx, List.map_cons]
    have hpk := peaksMax_af (c := c) hk (f :: l).reverse x.endTime (-B) []
    rw [mul_neg, List.map_nil, show afl c k (f :: l).reverse = (f.af c k :: afl c k l).reverse by simp] at hpk
    rw [hpk]
    have hini := initMax_af (c := c) hk (x.beginTime + a)
      (⟨f.time, f.value⟩ :: peaksMax (f :: l).reverse x.endTime (-B) []) []
    simp only [List.map_cons, List.map_nil] at hini
    have hfp : (⟨(f.af c k).time, (f.af c k).value⟩ : Point) = Point.af c k ⟨f.time, f.value⟩ := by
      simp [Point.af]
    have ht : x.beginTime + c + a = x.beginTime + a + c := by ring
    rw [hfp, ht, hini]
    cases initMax (x.beginTime + a) []
        (⟨f.time, f.value⟩ :: peaksMax (f :: l).reverse x.endTime (-B) []) with
    | error g => rfl
    | ok r =>
      obtain ⟨m, is⟩ := r
      simp only [Except.map, bind, Except.bind]
      cases is with
      | nil => rfl
      | cons i is =>
        have hlp := plateauMaxLoop_af (c := c) hk B a
          (2 * ((⟨f.time, f.value⟩ :: peaksMax (f :: l).reverse x.endTime (-B) [] :
            List Point)).length + 2) m (i :: is) [] x.beginTime
          (decide (i.time = x.beginTime + a)) false
        simp only [List.map_cons, List.map_nil] at hlp ⊢
        simp only [List.length_cons, List.length_map, Point.af_time, add_left_inj] at hlp ⊢
        rw [hlp]
        cases plateauMaxLoop B a (2 * ((peaksMax (f :: l).reverse x.endTime (-B) []).length + 1) + 2)
            m (i :: is) [] x.beginTime (decide (i.time = x.beginTime + a)) false with
        | error g => rfl
        | ok z =>
          simp only [Except.map]
          cases z with
          | nil => rfl
          | cons p z =>
            simp only [List.map_cons, Sample.af_time, add_left_inj]
            split_ifs
            · simp [afs]
            · simp [afs]

theorem plateauMin_af (hk : 0 < k) (B : ℚ) (x : Signal) (a : ℚ) :
    plateauMin (k * B) (afs c k x) a = (plateauMin B x a).map (afs c k) := by
  have h := plateauMin_not (k * B) (computeNot (afs c k x)) a
  have h' := plateauMin_not B (computeNot x) a
  rw [computeNot_computeNot] at h h'
  rw [h, h', not_af, plateauMax_af hk, map_map', map_map']
  congr 1
  funext z
  exact not_af z

theorem trimFront_af (s : ℚ) : ∀ (l : List Sample) (f g : Sample),
    (∀ u : ℚ, g.valueAt (u + c) = k * f.valueAt u) → g.derivative = k * f.derivative →
    (∀ u : ℚ, (trimFront (s + c) g (afl c k l)).1.valueAt (u + c) = k * (trimFront s f l).1.valueAt u) ∧
      (trimFront (s + c) g (afl c k l)).1.derivative = k * (trimFront s f l).1.derivative ∧
      (trimFront (s + c) g (afl c k l)).2 = afl c k (trimFront s f l).2
  | [], f, g, h1, h2 => ⟨h1, h2, rfl⟩
  | p :: l, f, g, h1, h2 => by
    simp only [List.map_cons, trimFront, Sample.af_time, add_lt_add_iff_right]
    split_ifs
    · exact trimFront_af s l p (p.af c k) (fun u => Sample.af_valueAt c k p u) (Sample.af_derivative c k p)
    · exact ⟨h1, h2, rfl⟩

theorem trimBack_af (t : ℚ) (l : List Sample) : trimBack (t + c) (afl c k l) = afl c k (trimBack t l) := by
  unfold trimBack
  rw [← List.map_reverse, List.dropWhile_map]
  have : ((fun p : Sample => decide (t + c < p.time)) ∘ Sample.af c k) = fun p => decide (t < p.time) := by
    funext p
    simp
  rw [this]
  simp

theorem resizeFront_af (x : Signal) (s : ℚ) :
    resizeFront (afs c k x) (s + c) = (resizeFront x s).map (afs c k) := by
  unfold resizeFront
  simp only [afs, add_lt_add_iff_right]
  by_cases h1 : s < x.beginTime
  · rw [if_pos h1, if_pos h1]
    cases x.samples with
    | nil => rfl
    | cons p l =>
      simp only [List.map_cons, Except.map]
      simp [afs, Sample.af]
  · rw [if_neg h1, if_neg h1]
    obtain ⟨a1, a2, a3⟩ := trimFront_af (c := c) (k := k) s x.samples Sample.zero Sample.zero
      (fun u => by simp [Sample.zero, Sample.valueAt]) (by simp [Sample.zero])
    generalize hA : trimFront (s + c) Sample.zero (afl c k x.samples) = A at a1 a2 a3
    generalize hC : trimFront s Sample.zero x.samples = C at a1 a2 a3
    obtain ⟨f', l'⟩ := A
    obtain ⟨f, l⟩ := C
    simp only at a1 a2 a3
    subst a3
    cases l with
    | nil =>
      simp only [List.map_nil, Except.map, a1]
      split_ifs <;> simp [afs, Sample.af]
    | cons p r =>
      simp only [List.map_cons, Sample.af_time, add_lt_add_iff_right]
      split_ifs
      · simp only [Except.map, a1, a2]
        simp [afs, Sample.af]
      · simp [afs, Except.map]

theorem resizeBack_af (hk : 0 < k) (x : Signal) (s t v : ℚ) :
    resizeBack (afs c k x) (s + c) (t + c) (k * v) = (resizeBack x s t v).map (afs c k) := by
  unfold resizeBack
  simp only [afs, getLast?_afl, add_lt_add_iff_right]
  split_ifs with h1
  · cases hl : x.samples.getLast? with
    | none => rfl
    | some b =>
      have hne : x.samples ≠ [] := by
        rintro h0
        rw [h0] at hl
        cases hl
      simp only [Option.map_some, Sample.af_value, Sample.af_derivative, ne_eq, mul_right_inj' hk.ne',
        mul_eq_zero, hk.ne', false_or]
      split_ifs <;> simp [bind, Except.bind, Except.map, afs, Sample.af, hne]
  · simp only [trimBack_af, bind, Except.bind, Except.map]
    simp only [List.map_eq_nil_iff]
    split_ifs <;> simp [afs, Sample.af]

theorem resize_af (hk : 0 < k) (x : Signal) {s t v : ℚ} (h : c = 0 ∨ s - tol ≤ t) :
    resize (afs c k x) (s + c) (t + c) (k * v) = (resize x s t v).map (afs c k) := by
  unfold resize
  have e1 : t + c < s + c - tol ↔ t < s - tol := by
    rw [add_sub_right_comm, add_lt_add_iff_right]
  simp only [e1, add_lt_add_iff_right]
  split_ifs with h1 h2
  · rcases h with rfl | h
    · simp [Except.map, afs]
    · exact absurd h1 (not_lt.2 h)
  · rw [resizeFront_af]
    cases resizeFront x s with
    | error f => rfl
    | ok y => exact resizeBack_af hk y s s v
  · rw [resizeFront_af]
    cases resizeFront x s with
    | error f => rfl
    | ok y => exact resizeBack_af hk y s t v

theorem shift_af (x : Signal) (a : ℚ) : shift (afs c k x) a = afs c k (shift x a) := by
  simp only [shift, afs, List.map_map, mk.injEq, List.map_inj_left, Function.comp_apply]
  refine ⟨fun p _ => ?_, by ring, by ring⟩
  simp only [Sample.af, Sample.mk.injEq, and_true]
  ring

theorem computeBoundedEventually_af (hk : 0 < k) (B : ℚ) (x : Signal) (a : ℚ)
    (h : c = 0 ∨ x.beginTime ≤ x.endTime) :
    computeBoundedEventually (k * B) (afs c k x) a = (computeBoundedEventually B x a).map (afs c k) := by
  unfold computeBoundedEventually
  have hr := resize_af (c := c) hk x (s := x.beginTime + a) (t := x.endTime + a) (v := -B)
    (h.imp_right fun h => by have : (0 : ℚ) < tol := by unfold tol; norm_num
                             linarith)
  rw [mul_neg] at hr
  rw [plateauMax_af hk]
  cases plateauMax B x a with
  | error f => rfl
  | ok z1 =>
    simp only [Except.map, bind, Except.bind]
    rw [show (afs c k x).beginTime + a = x.beginTime + a + c by simp [afs]; ring,
      show (afs c k x).endTime + a = x.endTime + a + c by simp [afs]; ring, hr]
    cases resize x (x.beginTime + a) (x.endTime + a) (-B) with
    | error f => rfl
    | ok z2 =>
      simp only [Except.map, shift_af, computeOr_af hk]
      cases computeOr (shift z2 (-a)) z1 with
      | error f => rfl
      | ok z3 =>
        simp only [Except.map, computeOr_af hk]
        cases computeOr x z3 with
        | error f => rfl
        | ok z => exact simplify_af hk z

theorem computeBoundedGlobally_af (hk : 0 < k) (B : ℚ) (x : Signal) (a : ℚ)
    (h : c = 0 ∨ x.beginTime ≤ x.endTime) :
    computeBoundedGlobally (k * B) (afs c k x) a = (computeBoundedGlobally B x a).map (afs c k) := by
  have h1 := computeBoundedGlobally_not (k * B) (computeNot (afs c k x)) a
  have h2 := computeBoundedGlobally_not B (computeNot x) a
  rw [computeNot_computeNot] at h1 h2
  rw [h1, h2, not_af, computeBoundedEventually_af hk B (computeNot x) a h, map_map', map_map']
  congr 1
  funext z
  exact not_af z

theorem computeTimedEventually_af (hk : 0 < k) (B : ℚ) (old old' x : Signal) (hx : x.samples ≠ []) (a b : ℚ) :
    computeTimedEventually (k * B) old' (afs c k x) a b =
      (computeTimedEventually B old x a b).map (afs c k) := by
  unfold computeTimedEventually
  have hx' : (afs c k x).samples ≠ [] := by simpa [afs] using hx
  rw [if_neg hx, if_neg hx']
  have hy : (if 0 < a then shift (afs c k x) (-a) else afs c k x) =
      afs c k (if 0 < a then shift x (-a) else x) := by
    split_ifs
    · exact shift_af x (-a)
    · rfl
  simp only [hy]
  generalize (if 0 < a then shift x (-a) else x) = y
  have he : (afs c k y).endTime - (afs c k y).beginTime = y.endTime - y.beginTime := by
    simp only [afs]
    ring
  rw [he]
  split_ifs with h1 h2
  · rfl
  · exact computeEventually_af hk B y
  · exact computeBoundedEventually_af hk B y _ (.inr (by linarith))

theorem computeTimedGlobally_af (hk : 0 < k) (B : ℚ) (old old' x : Signal) (hx : x.samples ≠ []) (a b : ℚ) :
    computeTimedGlobally (k * B) old' (afs c k x) a b =
      (computeTimedGlobally B old x a b).map (afs c k) := by
  unfold computeTimedGlobally
  have hx' : (afs c k x).samples ≠ [] := by simpa [afs] using hx
  rw [if_neg hx, if_neg hx']
  have hy : (if 0 < a then shift (afs c k x) (-a) else afs c k x) =
      afs c k (if 0 < a then shift x (-a) else x) := by
    split_ifs
    · exact shift_af x (-a)
    · rfl
  simp only [hy]
  generalize (if 0 < a then shift x (-a) else x) = y
  have he : (afs c k y).endTime - (afs c k y).beginTime = y.endTime - y.beginTime := by
    simp only [afs]
    ring
  rw [he]
  split_ifs with h1 h2
  · rfl
  · exact computeGlobally_af hk B y
  · exact computeBoundedGlobally_af hk B y _ (.inr (by linarith))

/-! ## Until -/

theorem negs_afl (l : List Sample) : negs (afl c k l) = afl c k (negs l) := by
  simp only [List.map_map]
  refine List.map_congr_left fun p _ => ?_
  simp [Sample.neg, Sample.af]

theorem segmentAnd_af (hk : 0 < k) (z : List Sample) (i : Sample) (t : ℚ) (js : List Sample) :
    segmentAnd (afl c k z) (i.af c k) (t + c) (afl c k js) =
      (segmentAnd z i t js).map fun r => (afl c k r.1, afl c k r.2) := by
  have nn : ∀ l : List Sample, negs (negs l) = l := fun l => by
    simp only [List.map_map]
    conv_rhs => rw [← List.map_id l]
    refine List.map_congr_left fun p _ => ?_
    simp [Sample.neg]
  have ni : ∀ p : Sample, p.neg.neg = p := fun p => by simp [Sample.neg]
  have h := segmentAnd_neg (i.af c k).neg (negs (afl c k z)) (negs (afl c k js)) (t + c)
  have h' := segmentAnd_neg i.neg (negs z) (negs js) t
  rw [nn, nn, ni] at h h'
  have e : (i.af c k).neg = i.neg.af c k := by simp [Sample.neg, Sample.af]
  rw [h, h', negs_afl, negs_afl, e, segmentOr_af hk, map_map', map_map']
  congr 1
  funext r
  simp only [Function.comp_apply, negs_afl]

theorem fmin_mul (hk : 0 < k) (a b : ℚ) : fmin (k * a) (k * b) = k * fmin a b := by
  unfold fmin
  simp only [mul_lt_mul_iff_right₀ hk]
  split_ifs <;> rfl

theorem mul_nonpos_iff' (hk : 0 < k) (d : ℚ) : k * d ≤ 0 ↔ d ≤ 0 := by
  constructor
  · intro h
    by_contra hd
    push Not at hd
    have := mul_pos hk hd
    linarith
  · intro h
    have := mul_nonneg hk.le (neg_nonneg.2 h)
    linarith

theorem segmentUntil_af (hk : 0 < k) (B : ℚ) (z : List Sample) (i : Sample) (t : ℚ)
    (js : List Sample) (m : ℚ) :
    segmentUntil (k * B) (afl c k z) (i.af c k) (t + c) (afl c k js) (k * m) =
      (segmentUntil B z i t js m).map fun r => (afl c k r.1, afl c k r.2) := by
  unfold segmentUntil
  have nil : afl c k ([] : List Sample) = [] := rfl
  simp only [Sample.af_derivative, mul_nonpos_iff' hk, Sample.af_time, Sample.af_valueAt,
    fmin_mul hk, af_mk0, ← mul_neg]
  by_cases hd : i.derivative ≤ 0
  · rw [if_pos hd, if_pos hd]
    have h1 := segmentAnd_af (c := c) hk [] i t js
    rw [nil] at h1
    rw [h1]
    cases segmentAnd [] i t js with
    | error f => rfl
    | ok r1 =>
      obtain ⟨z1, js1⟩ := r1
      simp only [Except.map, bind, Except.bind, ← List.map_reverse]
      have h2 := partialEventually_af (c := c) hk i.time z1.reverse [] t false (-B)
      rw [nil] at h2
      rw [h2]
      cases partialEventually i.time [] z1.reverse t false (-B) with
      | error f => rfl
      | ok r2 =>
        obtain ⟨z2, js2⟩ := r2
        simp only [Except.map, ← List.map_reverse, segmentOr_af hk]
        cases segmentOr z ⟨i.time, fmin m (i.valueAt t), 0⟩ t z2.reverse with
        | error f => rfl
        | ok r3 => rfl
  · rw [if_neg hd, if_neg hd]
    have h1 := partialEventually_af (c := c) hk i.time js [] t false (-B)
    rw [nil] at h1
    rw [h1]
    cases partialEventually i.time [] js t false (-B) with
    | error f => rfl
    | ok r1 =>
      obtain ⟨z1, js1⟩ := r1
      simp only [Except.map, bind, Except.bind, ← List.map_reverse]
      have h2 := segmentAnd_af (c := c) hk [] i t z1.reverse
      rw [nil] at h2
      rw [h2]
      cases segmentAnd [] i t z1.reverse with
      | error f => rfl
      | ok r2 =>
        obtain ⟨z2, js2⟩ := r2
        simp only [Except.map]
        have h3 := segmentAnd_af (c := c) hk [] i t [⟨i.time, m, 0⟩]
        rw [nil, show afl c k [(⟨i.time, m, 0⟩ : Sample)] = [(⟨i.time, m, 0⟩ : Sample).af c k] from rfl] at h3
        rw [h3]
        cases segmentAnd [] i t [⟨i.time, m, 0⟩] with
        | error f => rfl
        | ok r3 =>
          obtain ⟨z3, js3⟩ := r3
          simp only [Except.map, ← List.map_reverse, partialOr_af hk]
          cases partialOr i.time z z3.reverse z2.reverse t <;> rfl

theorem untilLoop_af (hk : 0 < k) (B s : ℚ) : ∀ (is z js : List Sample) (t m : ℚ),
    untilLoop (k * B) (s + c) (afl c k z) (afl c k is) (afl c k js) (t + c) (k * m) =
      (untilLoop B s z is js t m).map fun l => afl c k l := by
  intro is
  induction is with
  | nil => intro z js t m; rfl
  | cons i is ih =>
    intro z js t m
    simp only [List.map_cons, untilLoop, Sample.af_time, add_lt_add_iff_right, add_left_inj,
      Sample.af_valueAt, Sample.af_derivative]
    by_cases h1 : s < i.time
    · simp only [if_pos h1, segmentUntil_af hk]
      cases segmentUntil B z i t js m with
      | error f => rfl
      | ok r =>
        obtain ⟨z1, js1⟩ := r
        simp only [Except.map, bind, Except.bind]
        cases z1 with
        | nil => rfl
        | cons f z1 =>
          cases js1 with
          | nil => rfl
          | cons j js1 =>
            have e : (if j.time = i.time then afl c k js1 else j.af c k :: afl c k js1) =
                afl c k (if j.time = i.time then js1 else j :: js1) := by
              split_ifs <;> simp
            simp only [List.map_cons, Sample.af_time, add_left_inj, Sample.af_value, e]
            exact ih (f :: z1) _ _ _
    · simp only [if_neg h1]
      by_cases h2 : i.time = s
      · simp only [if_pos h2, segmentUntil_af hk]
        cases segmentUntil B z i t js m with
        | error f => rfl
        | ok r => rfl
      · simp only [if_neg h2, af_mk, segmentUntil_af hk]
        cases segmentUntil B z ⟨s, i.valueAt s, i.derivative⟩ t js m with
        | error f => rfl
        | ok r => rfl

theorem computeUntil_af (hk : 0 < k) (B : ℚ) (x y : Signal) :
    computeUntil (k * B) (afs c k x) (afs c k y) = (computeUntil B x y).map (afs c k) := by
  have nil : afl c k ([] : List Sample) = [] := rfl
  simp only [computeUntil, afs, fmax_af, fmin_af, ← List.map_reverse, skip_af]
  cases skip (fmin x.endTime y.endTime) x.samples.reverse with
  | error f => rfl
  | ok is =>
    simp only [Except.map, bind, Except.bind]
    cases skip (fmin x.endTime y.endTime) y.samples.reverse with
    | error f => rfl
    | ok js =>
      have h := untilLoop_af (c := c) hk B (fmax x.beginTime y.beginTime) is [] js
        (fmin x.endTime y.endTime) (-B)
      rw [nil, mul_neg] at h
      dsimp only
      rw [h]
      cases untilLoop B (fmax x.beginTime y.beginTime) [] is js (fmin x.endTime y.endTime) (-B) with
      | error f => rfl
      | ok z =>
        exact simplify_af hk (⟨z, fmax x.beginTime y.beginTime, fmin x.endTime y.endTime⟩ : Signal)

theorem computeTimedUntil_af (hk : 0 < k) (B : ℚ) (old x y : Signal) (a b : ℚ) :
    computeTimedUntil (k * B) (afs 0 k old) (afs 0 k x) (afs 0 k y) a b =
      (computeTimedUntil B old x y a b).map (afs 0 k) := by
  unfold computeTimedUntil
  have e1 : (afs 0 k x).samples = [] ↔ x.samples = [] := by simp [afs]
  have e2 : (afs 0 k y).samples = [] ↔ y.samples = [] := by simp [afs]
  have e3 : (afs 0 k x).endTime = x.endTime := by simp [afs]
  have e4 : (afs 0 k y).endTime = y.endTime := by simp [afs]
  simp only [e1, e2, e3, e4, computeUntil_af hk, computeGlobally_af hk,
    computeBoundedGlobally_af hk B x a (.inl rfl)]
  split_ifs
  · simp [afs, Except.map]
  · rfl
  · rfl
  · cases computeBoundedGlobally B x a with
    | error f => rfl
    | ok z1 =>
      simp only [Except.map, bind, Except.bind]
      cases computeUntil B x y with
      | error f => rfl
      | ok z2 =>
        simp only [shift_af]
        exact computeAnd_af hk _ _
  · unfold computeTimedUntilF
    simp only [computeUntil_af hk, computeBoundedGlobally_af hk B x a (.inl rfl),
      computeBoundedEventually_af hk B y _ (.inl rfl)]
    cases computeBoundedEventually B y (b - a) with
    | error f => rfl
    | ok z2 =>
      simp only [Except.map, bind, Except.bind]
      cases computeUntil B x y with
      | error f => rfl
      | ok z3 =>
        simp only [computeAnd_af hk]
        cases computeAnd z2 z3 with
        | error f => rfl
        | ok z4 =>
          simp only [Except.map]
          split_ifs
          · cases computeBoundedGlobally B x a with
            | error f => rfl
            | ok z1 =>
              simp only [shift_af]
              exact computeAnd_af hk _ _
          · exact computeAnd_af hk _ _

/-! ## Signals that may be empty -/

/-- The map on signals as an evaluation builds them: an empty signal has no times to move. -/
def af0 (c k : ℚ) (x : Signal) : Signal := if x.samples = [] then x else afs c k x

@[simp] theorem af0_nil (x : Signal) (h : x.samples = []) : af0 c k x = x := if_pos h

theorem af0_ne {x : Signal} (h : x.samples ≠ []) : af0 c k x = afs c k x := if_neg h

@[simp] theorem af0_samples (x : Signal) : (af0 c k x).samples = afl c k x.samples := by
  unfold af0
  split_ifs with h
  · simp [h]
  · rfl

theorem af0_samples_eq (x : Signal) : (af0 c k x).samples = [] ↔ x.samples = [] := by simp

theorem front_af0 (x : Signal) : front (af0 c k x) = (front x).map (Sample.af c k) := by
  unfold front
  rw [af0_samples]
  cases x.samples <;> rfl

theorem setBackDerivative_af (l : List Sample) (d : ℚ) :
    setBackDerivative (afl c k l) (k * d) = afl c k (setBackDerivative l d) := by
  unfold setBackDerivative
  rw [getLast?_afl]
  cases l.getLast? with
  | none => rfl
  | some p => simp [Sample.af, List.map_dropLast]

theorem qdiv_mul_left (a b : ℚ) : qdiv (k * a) b = (qdiv a b).map (k * ·) := by
  unfold qdiv
  split_ifs
  · rfl
  · simp only [Except.map]
    rw [mul_div_assoc]

theorem appendSample_af (ip : Interpol) (x : Signal) (t v d : ℚ) :
    appendSample ip (af0 c k x) (t + c) (k * v) (k * d) = (appendSample ip x t v d).map (af0 c k) := by
  unfold appendSample
  by_cases hx : x.samples = []
  · cases ip <;> simp [hx, Except.map, af0, afs, Sample.af]
  · rw [af0_ne hx]
    have e : (afs c k x).samples = afl c k x.samples := rfl
    have e' : (afs c k x).endTime = x.endTime + c := rfl
    have hx' : afl c k x.samples ≠ [] := by simpa using hx
    simp only [e, e', add_le_add_iff_right, hx, hx', ne_eq, not_false_eq_true, and_true, if_false]
    split_ifs
    · simp [Except.map, af0, hx]
    · cases ip with
      | PREVIOUS => simp [Except.map, af0, afs, Sample.af]
      | LINEAR =>
        simp only [getLast?_afl]
        cases x.samples.getLast? with
        | none => simp [Except.map, af0, afs, Sample.af]
        | some b =>
          have e1 : k * v - k * b.value = k * (v - b.value) := by ring
          have e2 : t + c - (b.time + c) = t - b.time := by ring
          simp only [Option.map_some, Sample.af_value, Sample.af_time, e1, e2, qdiv_mul_left]
          cases qdiv (v - b.value) (t - b.time) with
          | error f => rfl
          | ok d' =>
            simp only [Except.map, bind, Except.bind, setBackDerivative_af]
            simp [af0, afs, Sample.af]

theorem appendSample0_af (ip : Interpol) (x : Signal) (t v : ℚ) :
    appendSample0 ip (af0 c k x) (t + c) (k * v) = (appendSample0 ip x t v).map (af0 c k) := by
  have := appendSample_af (c := c) (k := k) ip x t v 0
  rw [mul_zero] at this
  exact this

theorem resize_ne {x y : Signal} {s t v : ℚ} (h : resize x s t v = .ok y) (ht : s - tol ≤ t) :
    y.samples ≠ [] := by
  unfold resize at h
  rw [if_neg (not_lt.2 ht)] at h
  obtain ⟨x1, -, h⟩ := bind_eq_ok.1 h
  unfold resizeBack at h
  obtain ⟨l, -, h⟩ := bind_eq_ok.1 h
  cases h
  simp only
  split_ifs with h0
  · simp
  · exact h0

theorem resize_afs (hk : 0 < k) (x : Signal) (s t v : ℚ) :
    resize (afs c k x) (s + c) (t + c) (k * v) = (resize x s t v).map (af0 c k) := by
  by_cases h : t < s - tol
  · unfold resize
    have e1 : t + c < s + c - tol ↔ t < s - tol := by
      rw [add_sub_right_comm, add_lt_add_iff_right]
    rw [if_pos (e1.2 h), if_pos h]
    rfl
  · rw [resize_af hk x (.inr (not_lt.1 h))]
    cases hr : resize x s t v with
    | error f => rfl
    | ok y =>
      have : y.samples ≠ [] := resize_ne hr (not_lt.1 h)
      simp only [Except.map, af0_ne this]

theorem af0_eq {x : Signal} (h : c = 0 ∨ x.samples ≠ []) : af0 c k x = afs c k x := by
  unfold af0
  split_ifs with h0
  · rcases h with rfl | h
    · obtain ⟨l, b, e⟩ := x
      simp only at h0
      subst h0
      simp [afs]
    · exact absurd h0 h
  · rfl

/-! ## Boolean and time robustness -/

theorem booleanLoop_af (e : ℚ) : ∀ l : List Sample,
    booleanLoop (e + c) (afl c 1 l) = (booleanLoop e l).map fun r => afl c 1 r
  | [] => rfl
  | i :: is => by
    have ht : ∀ q : ℚ, i.time + c - q = i.time - q + c := fun q => by ring
    have ih := booleanLoop_af e is
    rw [show afl c 1 (i :: is) = i.af c 1 :: afl c 1 is from rfl, booleanLoop.eq_def, booleanLoop.eq_def]
    simp only [ih, Sample.af_value, Sample.af_derivative, Sample.af_time, one_mul]
    cases booleanLoop e is with
    | error f => rfl
    | ok r =>
      simp only [Except.map, bind, Except.bind]
      cases qdiv i.value i.derivative with
      | error f => split_ifs <;> simp [Sample.af]
      | ok q =>
        cases is <;> simp only [ht, add_lt_add_iff_right, List.map_nil, List.map_cons, Sample.af_time] <;>
          split_ifs <;> simp [Sample.af]

theorem computeBoolean_af (y : Signal) :
    computeBoolean (afs c 1 y) = (computeBoolean y).map (afs c 1) := by
  unfold computeBoolean
  rw [show (afs c 1 y).endTime = y.endTime + c from rfl,
    show (afs c 1 y).samples = afl c 1 y.samples from rfl, booleanLoop_af]
  cases booleanLoop y.endTime y.samples with
  | error f => rfl
  | ok l =>
    simp only [Except.map, bind, Except.bind]
    have := simplify_af (c := c) one_pos (⟨l, y.beginTime, y.endTime⟩ : Signal)
    rw [show (afs c 1 ⟨l, y.beginTime, y.endTime⟩ : Signal) = ⟨afl c 1 l, (afs c 1 y).beginTime,
      y.endTime + c⟩ from rfl] at this
    rw [this]
    cases simplify (⟨l, y.beginTime, y.endTime⟩ : Signal) with
    | error f => rfl
    | ok x =>
      simp only [Except.map, afs, getLast?_afl]
      cases x.samples.getLast? with
      | none => rfl
      | some b =>
        simp only [Option.map_some, Sample.af_time, add_left_inj]
        split_ifs
        · simp [List.map_dropLast]
        · rfl

theorem computeLeftTimeRob_af (y : Signal) :
    computeLeftTimeRob (afs c 1 y) = (computeLeftTimeRob y).map (afs c 1) := by
  unfold computeLeftTimeRob
  rw [computeBoolean_af]
  cases computeBoolean y with
  | error f => rfl
  | ok x =>
    simp only [Except.map, bind, Except.bind, afs, List.map_map, Except.ok.injEq, mk.injEq, and_true]
    refine List.map_congr_left fun p _ => ?_
    simp only [Function.comp_apply, Sample.af_value, one_mul, Sample.af_time]
    split_ifs <;> simp [Sample.af]

theorem computeRightTimeRob_af (y : Signal) :
    computeRightTimeRob (afs c 1 y) = (computeRightTimeRob y).map (afs c 1) := by
  unfold computeRightTimeRob
  rw [computeBoolean_af]
  cases computeBoolean y with
  | error f => rfl
  | ok x =>
    simp only [Except.map, bind, Except.bind, afs]
    cases x.samples <;> rfl

end Signal
end STLRom
