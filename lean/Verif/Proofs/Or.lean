import Mathlib.Algebra.Order.Group.MinMax
import Verif.Proofs.AndTop

/-!
# Negation, and disjunction by duality
-/

namespace STLRom

/-- A sample with its value and derivative negated. -/
def Sample.neg (p : Sample) : Sample := ⟨p.time, -p.value, -p.derivative⟩

@[simp] theorem Sample.neg_time (p : Sample) : p.neg.time = p.time := by cases p; rfl
@[simp] theorem Sample.neg_value (p : Sample) : p.neg.value = -p.value := by cases p; rfl
@[simp] theorem Sample.neg_derivative (p : Sample) : p.neg.derivative = -p.derivative := by cases p; rfl
@[simp] theorem Sample.neg_neg (p : Sample) : p.neg.neg = p := by
  simp [Sample.neg]
@[simp] theorem Sample.neg_valueAt (p : Sample) (t : ℚ) : p.neg.valueAt t = -p.valueAt t := by
  simp [Sample.neg, Sample.valueAt]; ring

theorem Sample.neg_neg_comp : Sample.neg ∘ Sample.neg = id := by
  funext p; simp

/-- Negating all samples. -/
abbrev negs (l : List Sample) : List Sample := l.map Sample.neg

@[simp] theorem negs_negs (l : List Sample) : negs (negs l) = l := by
  simp [Sample.neg_neg_comp]

theorem Sample.neg_timeIntersect (p q : Sample) :
    p.neg.timeIntersect q.neg = p.timeIntersect q := by
  simp only [Sample.timeIntersect, qdiv, neg_value, neg_derivative, neg_time]
  have h1 : -q.derivative - -p.derivative = -(q.derivative - p.derivative) := by ring
  have h2 : -p.value - -q.value + -q.derivative * q.time - -p.derivative * p.time
      = -(p.value - q.value + q.derivative * q.time - p.derivative * p.time) := by ring
  rw [h1, h2]
  by_cases h : q.derivative - p.derivative = 0
  · simp [h]
  · rw [if_neg h, if_neg (neg_ne_zero.2 h), neg_div_neg_eq]

theorem Sample.mk_neg (t v d : ℚ) : (⟨t, -v, -d⟩ : Sample) = (⟨t, v, d⟩ : Sample).neg := rfl

namespace Signal

theorem computeNot_samples (y : Signal) : (computeNot y).samples = negs y.samples := rfl

theorem computeNot_eq (y : Signal) : computeNot y = ⟨negs y.samples, y.beginTime, y.endTime⟩ := rfl

@[simp] theorem computeNot_computeNot (y : Signal) : computeNot (computeNot y) = y := by
  cases y
  simp [computeNot_eq, Sample.neg_neg_comp]

theorem segmentAndLoop_neg (i : Sample) : ∀ (js z : List Sample) (t : ℚ) (c : Bool),
    segmentAndLoop i.neg (negs z) t c (negs js) =
      (segmentOrLoop i z t c js).map fun r => (negs r.1, r.2.1, r.2.2.1, negs r.2.2.2) := by
  intro js
  induction js with
  | nil => intro z t c; rfl
  | cons j js ih =>
    intro z t c
    have hpend : ∀ (c : Bool) (t : ℚ), (if c = true then
          (⟨t, -i.valueAt t, -i.derivative⟩ : Sample) :: negs z else negs z) =
        negs (if c = true then (⟨t, i.valueAt t, i.derivative⟩ : Sample) :: z else z) := by
      intro c t
      cases c <;> simp [Sample.neg]
    simp only [List.map_cons, segmentAndLoop, segmentOrLoop, Sample.neg_time, Sample.neg_valueAt,
      Sample.neg_value, Sample.neg_derivative, neg_lt_neg_iff, neg_inj,
      Sample.neg_timeIntersect, hpend, gt_iff_lt]
    have hm : ∀ t v d : ℚ, (⟨t, -v, -d⟩ : Sample) = (⟨t, v, d⟩ : Sample).neg := fun _ _ _ => rfl
    simp only [hm, ← List.map_cons]
    cases i.timeIntersect j <;> split_ifs <;>
      (try simp only [bind, Except.bind, ih]) <;> rfl

theorem segmentAndLast_neg (i j : Sample) (z : List Sample) (t : ℚ) (c : Bool) :
    segmentAndLast i.neg (negs z) t c j.neg = (segmentOrLast i z t c j).map negs := by
  have hpend : ∀ (c : Bool) (t : ℚ), (if c = true then
        (⟨t, -i.valueAt t, -i.derivative⟩ : Sample) :: negs z else negs z) =
      negs (if c = true then (⟨t, i.valueAt t, i.derivative⟩ : Sample) :: z else z) := by
    intro c t
    cases c <;> simp [Sample.neg]
  simp only [segmentAndLast, segmentOrLast, Sample.neg_time, Sample.neg_valueAt,
    Sample.neg_value, Sample.neg_derivative, neg_lt_neg_iff, neg_inj,
    Sample.neg_timeIntersect, hpend, gt_iff_lt]
  have hm : ∀ t v d : ℚ, (⟨t, -v, -d⟩ : Sample) = (⟨t, v, d⟩ : Sample).neg := fun _ _ _ => rfl
  simp only [hm, ← List.map_cons]
  cases i.timeIntersect j <;> split_ifs <;>
    (try simp only [bind, Except.bind]) <;> rfl

theorem segmentAnd_neg (i : Sample) (z js : List Sample) (t : ℚ) :
    segmentAnd (negs z) i.neg t (negs js) =
      (segmentOr z i t js).map fun r => (negs r.1, negs r.2) := by
  simp only [segmentAnd, segmentOr, segmentAndLoop_neg]
  cases segmentOrLoop i z t false js with
  | error f => rfl
  | ok r =>
    obtain ⟨z, t, c, js⟩ := r
    cases js with
    | nil => rfl
    | cons j js =>
      simp only [Except.map, bind, Except.bind, List.map_cons, segmentAndLast_neg]
      cases segmentOrLast i z t c j <;> rfl

theorem partialAnd_neg (s : ℚ) : ∀ (is z js : List Sample) (t : ℚ),
    partialAnd s (negs z) (negs is) (negs js) t = (partialOr s z is js t).map negs := by
  intro is
  induction is with
  | nil => intro z js t; rfl
  | cons i is ih =>
    intro z js t
    simp only [List.map_cons, partialAnd, partialOr, Sample.neg_time]
    have hmk : (⟨s, i.neg.valueAt s, i.neg.derivative⟩ : Sample) =
      (⟨s, i.valueAt s, i.derivative⟩ : Sample).neg := by
      simp [Sample.mk_neg]
    rw [hmk]
    split_ifs with h1 h2
    · rw [segmentAnd_neg]
      cases segmentOr z i t js with
      | error f => rfl
      | ok r =>
        obtain ⟨z', js'⟩ := r
        cases js' with
        | nil => rfl
        | cons j js' =>
          simp only [Except.map, bind, Except.bind, List.map_cons, Sample.neg_time]
          split_ifs with h3
          · rw [ih]; rfl
          · have := ih z' (j :: js') i.time
            rw [show negs (j :: js') = j.neg :: List.map Sample.neg js' from rfl] at this
            rw [this]; rfl
    · rw [segmentAnd_neg]
      cases segmentOr z i t js <;> simp [Except.map, bind, Except.bind]
    · rw [segmentAnd_neg]
      cases segmentOr z ⟨s, i.valueAt s, i.derivative⟩ t js <;>
        simp [Except.map, bind, Except.bind]

theorem getLast?_negs (l : List Sample) : (negs l).getLast? = l.getLast?.map Sample.neg := by
  simp [List.getLast?_map]

theorem simplifyLoop_neg (bt : ℚ) : ∀ (n : ℕ) (l : List Sample),
    simplifyLoop bt n (negs l) = (simplifyLoop bt n l).map negs := by
  intro n
  induction n with
  | zero =>
    intro l
    cases l with
    | nil => rfl
    | cons f r =>
      simp only [List.map_cons, simplifyLoop, Sample.neg_time]
      split_ifs <;> simp [Except.map]
  | succ n ih =>
    intro l
    cases l with
    | nil => rfl
    | cons f r =>
      simp only [List.map_cons, simplifyLoop, Sample.neg_time]
      split_ifs with h
      · simp [Except.map]
      · have hl := getLast?_negs (f :: r)
        rw [show negs (f :: r) = f.neg :: List.map Sample.neg r from rfl] at hl
        rw [hl]
        cases (f :: r).getLast? with
        | none => rfl
        | some b =>
          simp only [Option.map_some, Sample.neg_valueAt, Sample.neg_value, ne_eq, neg_inj,
            Sample.neg_derivative]
          split_ifs with h2
          · rw [← ih]; simp
          · rw [← ih]

theorem simplify_not (x : Signal) : simplify (computeNot x) = (simplify x).map computeNot := by
  rcases x with ⟨l, b, e⟩
  cases l with
  | nil => rfl
  | cons p r =>
    have h := simplifyLoop_neg b (r.length + 1) (r ++ [p])
    simp only [List.map_append, List.map_cons, List.map_nil] at h
    have hs : (computeNot ⟨p :: r, b, e⟩) = ⟨p.neg :: negs r, b, e⟩ := rfl
    simp only [hs, simplify, List.length_map, h]
    cases simplifyLoop b (r.length + 1) (r ++ [p]) with
    | error f => rfl
    | ok m =>
      simp only [Except.map, bind, Except.bind, getLast?_negs]
      cases m.getLast? with
      | none => rfl
      | some q =>
        simp only [Option.map_some, Sample.neg_time, Sample.neg_valueAt]
        split_ifs <;> simp [computeNot, Sample.neg]

theorem skip_neg (e : ℚ) : ∀ l : List Sample, skip e (negs l) = (skip e l).map negs := by
  intro l
  induction l with
  | nil => rfl
  | cons p l ih =>
    simp only [List.map_cons, skip, Sample.neg_time]
    split_ifs
    · exact ih
    · rfl

theorem skipGuarded_neg (e : ℚ) :
    ∀ l : List Sample, skipGuarded e (negs l) = (skipGuarded e l).map negs := by
  intro l
  induction l with
  | nil => rfl
  | cons p l ih =>
    cases l with
    | nil => rfl
    | cons q l =>
      simp only [List.map_cons, skipGuarded, Sample.neg_time] at ih ⊢
      split_ifs
      · exact ih
      · rfl

/-- De Morgan between the two separately written routines, faults included. -/
theorem computeAndM_not (x y : Signal) :
    computeAndM (computeNot x) (computeNot y) = (computeOrM x y).map computeNot := by
  have hx : (computeNot x).samples.reverse = negs x.samples.reverse := by
    simp [computeNot_samples, List.map_reverse]
  have hy : (computeNot y).samples.reverse = negs y.samples.reverse := by
    simp [computeNot_samples, List.map_reverse]
  simp only [computeAndM, computeOrM, hx, hy, skipGuarded_neg]
  have hb : ∀ z : Signal, (computeNot z).beginTime = z.beginTime := fun _ => rfl
  have he : ∀ z : Signal, (computeNot z).endTime = z.endTime := fun _ => rfl
  simp only [hb, he]
  cases skipGuarded (fmin x.endTime y.endTime) x.samples.reverse with
  | error f => rfl
  | ok is =>
    simp only [Except.map, bind, Except.bind]
    cases skipGuarded (fmin x.endTime y.endTime) y.samples.reverse with
    | error f => rfl
    | ok js =>
      simp only
      have := partialAnd_neg (fmax x.beginTime y.beginTime) is [] js (fmin x.endTime y.endTime)
      rw [show negs ([] : List Sample) = [] from rfl] at this
      rw [this]
      cases partialOr (fmax x.beginTime y.beginTime) [] is js (fmin x.endTime y.endTime) with
      | error f => rfl
      | ok z =>
        simp only [Except.map]
        exact simplify_not ⟨z, _, _⟩

theorem computeAnd_not (x y : Signal) :
    computeAnd (computeNot x) (computeNot y) = (computeOr x y).map computeNot := by
  have hx : (computeNot x).samples.reverse = negs x.samples.reverse := by
    simp [computeNot_samples, List.map_reverse]
  have hy : (computeNot y).samples.reverse = negs y.samples.reverse := by
    simp [computeNot_samples, List.map_reverse]
  simp only [computeAnd, computeOr, hx, hy, skip_neg]
  have hb : ∀ z : Signal, (computeNot z).beginTime = z.beginTime := fun _ => rfl
  have he : ∀ z : Signal, (computeNot z).endTime = z.endTime := fun _ => rfl
  simp only [hb, he]
  cases skip (fmin x.endTime y.endTime) x.samples.reverse with
  | error f => rfl
  | ok is =>
    simp only [Except.map, bind, Except.bind]
    cases skip (fmin x.endTime y.endTime) y.samples.reverse with
    | error f => rfl
    | ok js =>
      simp only
      have := partialAnd_neg (fmax x.beginTime y.beginTime) is [] js (fmin x.endTime y.endTime)
      rw [show negs ([] : List Sample) = [] from rfl] at this
      rw [this]
      cases partialOr (fmax x.beginTime y.beginTime) [] is js (fmin x.endTime y.endTime) with
      | error f => rfl
      | ok z =>
        simp only [Except.map]
        exact simplify_not ⟨z, _, _⟩

end Signal

open Signal

theorem except_map_computeNot {r : M Signal} {s : Signal}
    (h : r.map computeNot = .ok s) : r = .ok (computeNot s) := by
  cases r with
  | error f => simp [Except.map] at h
  | ok z =>
    simp only [Except.map, Except.ok.injEq] at h
    rw [← h, computeNot_computeNot]

theorem cur_negs (l : List Sample) (τ : Pt) : cur (negs l) τ = (cur l τ).map Sample.neg := by
  induction l with
  | nil => rfl
  | cons p l ih =>
    simp only [List.map_cons, cur, ih, Sample.neg_time]
    cases cur l τ with
    | none => by_cases h : pl p.time ≤ τ <;> simp [h]
    | some q => simp

theorem val_negs (l : List Sample) (τ : Pt) : val (negs l) τ = (val l τ).map Neg.neg := by
  simp only [val, cur_negs, Option.map_map]
  congr 1
  funext p
  simp

@[simp] theorem v_not (x : Signal) (τ : Pt) : (computeNot x).v τ = -x.v τ := by
  simp only [Signal.v, computeNot_samples, val_negs]
  cases val x.samples τ <;> simp

theorem sorted_negs {l : List Sample} (h : Sorted l) : Sorted (negs l) :=
  List.pairwise_map.2 (by simpa [Sorted] using h)

theorem WF0.not {x : Signal} (h : WF0 x) : WF0 (computeNot x) := by
  refine ⟨by simpa [computeNot_samples] using h.ne, ?_, sorted_negs h.sorted, ?_⟩
  · intro p hp
    obtain ⟨q, l, hx, hq⟩ := h.exists_cons
    simp [computeNot_samples, hx] at hp
    rw [← hp]; exact hq
  · intro p hp
    simp only [computeNot_samples, List.mem_map] at hp
    obtain ⟨q, hq, rfl⟩ := hp
    exact h.le_end q hq

theorem WF.not {x : Signal} (h : WF x) : WF (computeNot x) := by
  refine ⟨h.toWF0.not, ?_⟩
  intro p hp
  simp only [computeNot_samples, ← List.map_tail, List.mem_map] at hp
  obtain ⟨q, hq, rfl⟩ := hp
  exact h.strict q hq

theorem IsOn.not {z : Signal} {b e : ℚ} {f : Pt → ℚ} (h : IsOn z b e f) :
    IsOn (computeNot z) b e (fun τ => -f τ) :=
  ⟨h.begin_eq, h.end_eq, h.wf.not, fun τ a c => by rw [v_not, h.val τ a c],
    fun hb => by rw [v_not, v_not, h.last hb], fun hb => by rw [v_not, h.point hb]⟩

theorem IsOn.congr {z : Signal} {b e : ℚ} {f g : Pt → ℚ} (h : IsOn z b e f)
    (hfg : ∀ τ, f τ = g τ) : IsOn z b e g := by
  have : f = g := funext hfg
  rwa [← this]

theorem computeOrM_spec_lt {x y : Signal} (hx : WF0 x) (hy : WF0 y)
    (hlt : max x.beginTime y.beginTime < min x.endTime y.endTime) :
    ∃ z, computeOrM x y = .ok z ∧
      IsOn z (max x.beginTime y.beginTime) (min x.endTime y.endTime)
        (fun τ => max (x.v τ) (y.v τ)) := by
  obtain ⟨z, h1, h2⟩ := computeAndM_spec_lt hx.not hy.not hlt
  rw [computeAndM_not] at h1
  refine ⟨computeNot z, except_map_computeNot h1, h2.not.congr fun τ => ?_⟩
  rw [v_not, v_not, min_neg_neg, neg_neg]

theorem computeOrM_spec_eq {x y : Signal} (hx : WF x) (hy : WF y)
    (hb : x.beginTime = y.beginTime) (he : min x.endTime y.endTime = x.beginTime) :
    ∃ z, computeOrM x y = .ok z ∧
      IsOn z x.beginTime x.beginTime (fun τ => max (x.v τ) (y.v τ)) := by
  obtain ⟨z, h1, h2⟩ := computeAndM_spec_eq hx.not hy.not hb he
  rw [computeAndM_not] at h1
  refine ⟨computeNot z, except_map_computeNot h1, h2.not.congr fun τ => ?_⟩
  rw [v_not, v_not, min_neg_neg, neg_neg]

theorem computeOr_spec {x y : Signal} (hx : WF0 x) (hy : WF0 y)
    (hlt : max x.beginTime y.beginTime < min x.endTime y.endTime) :
    ∃ z, computeOr x y = .ok z ∧
      IsOn z (max x.beginTime y.beginTime) (min x.endTime y.endTime)
        (fun τ => max (x.v τ) (y.v τ)) := by
  obtain ⟨z, h1, h2⟩ := computeAnd_spec hx.not hy.not hlt
  rw [computeAnd_not] at h1
  refine ⟨computeNot z, except_map_computeNot h1, h2.not.congr fun τ => ?_⟩
  rw [v_not, v_not, min_neg_neg, neg_neg]

end STLRom
