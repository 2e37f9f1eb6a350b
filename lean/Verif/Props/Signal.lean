import Verif.Spec.Interp
import Verif.Proofs.Resize

/-!
# Properties C01, C02, C08, C09, C10: building and reshaping signals
-/

namespace STLRom
namespace Props
open Signal Spec

/-! ## C01 append_sample builds the interpolated signal -/

/-- The signal built by a sequence of `append_sample` calls. -/
def built (ip : Interpol) (ps : List (ℚ × ℚ)) : M Signal :=
  ps.foldlM (fun x p => appendSample0 ip x p.1 p.2) Signal.empty

theorem C01_append (ip : Interpol) (ps : List (ℚ × ℚ)) :
    ∃ z, built ip ps = .ok z ∧ (∀ t, value z t = interp ip (accepted ps) t) := by
  refine ⟨_, appends_eq ip ps, fun t => ?_⟩
  rw [value_eq, linSig_samples, val_lin_pl ip _ t (accepted_inc ps)]

/-- No jumps with LINEAR interpolation. -/
theorem C01_append_continuous (ps : List (ℚ × ℚ)) :
    ∃ z, built .LINEAR ps = .ok z ∧ ∀ t, z.beginTime < t → ContinuousAt z t := by
  refine ⟨_, appends_eq .LINEAR ps, fun t ht => ?_⟩
  rw [ContinuousAt, value_eq, leftValue_eq, linSig_samples]
  have := accepted_inc ps
  revert ht this
  cases accepted ps with
  | nil => intro _ _; rfl
  | cons p l =>
    intro ht hi
    rw [linSig_begin] at ht
    rw [val_lin_mi _ t hi (by simpa using ht), val_lin_pl _ _ _ hi]

/-- The function named in C01, spelled out: the given value at every accepted time, and
between two consecutive accepted times the straight line or the earlier value. -/
theorem interp_spec (ip : Interpol) : ∀ (l : List (ℚ × ℚ)), (l.Pairwise fun p q => p.1 < q.1) →
    (∀ p ∈ l, interp ip l p.1 = some p.2) ∧
    (∀ l₁ l₂ p q t, l = l₁ ++ p :: q :: l₂ → p.1 ≤ t → t < q.1 →
      interp ip l t = some (match ip with
        | .LINEAR => p.2 + (q.2 - p.2) / (q.1 - p.1) * (t - p.1)
        | .PREVIOUS => p.2)) ∧
    (∀ p t, l.getLast? = some p → p.1 ≤ t → interp ip l t = some p.2)
  | [], _ => by simp
  | [(s, u)], _ => by
    refine ⟨by simp [interp], ?_, by rintro ⟨a, b⟩ t h ha; simp at h; simp [interp, h, ha]⟩
    intro l₁ l₂ p q t h
    rcases l₁ with _ | ⟨a, l₁⟩ <;> simp at h
  | (s, u) :: (s', u') :: r, h => by
    have hp := List.pairwise_cons.1 h
    obtain ⟨i1, i2, i3⟩ := interp_spec ip ((s', u') :: r) hp.2
    have hss : s < s' := hp.1 (s', u') (by simp)
    have hge : ∀ t, s' ≤ t → interp ip ((s, u) :: (s', u') :: r) t =
        interp ip ((s', u') :: r) t := by
      intro t ht
      simp only [interp, if_neg (show ¬ t < s by linarith), if_neg (show ¬ t < s' by linarith)]
    have hr : ∀ p ∈ (s', u') :: r, s' ≤ p.1 := by
      intro p hpm
      rcases List.mem_cons.1 hpm with rfl | hpm
      · exact le_rfl
      · exact ((List.pairwise_cons.1 hp.2).1 p hpm).le
    refine ⟨?_, ?_, ?_⟩
    · intro p hpm
      rcases List.mem_cons.1 hpm with rfl | hpm
      · simp only [interp, lt_irrefl, if_false, hss, if_true]
        cases ip <;> simp
      · rw [hge _ (hr p hpm), i1 p hpm]
    · intro l₁ l₂ p q t he h1 h2
      rcases l₁ with _ | ⟨a, l₁⟩
      · simp only [List.nil_append, List.cons.injEq] at he
        obtain ⟨rfl, rfl, rfl⟩ := he
        simp only at h1 h2
        simp only [interp, not_lt.2 h1, if_false, h2, if_true]
        cases ip <;> rfl
      · simp only [List.cons_append, List.cons.injEq] at he
        have hpm : p ∈ (s', u') :: r := by rw [he.2]; simp
        rw [hge t ((hr p hpm).trans h1)]
        exact i2 l₁ l₂ p q t he.2 h1 h2
    · intro p t hl h1
      rw [List.getLast?_cons_cons] at hl
      rw [hge t ((hr p (List.mem_of_getLast? hl)).trans h1)]
      exact i3 p t hl h1

/-- C01 in the words of the property. -/
theorem C01_append_points (ip : Interpol) (ps : List (ℚ × ℚ)) :
    ∃ z, built ip ps = .ok z ∧
      (∀ p ∈ accepted ps, value z p.1 = some p.2) ∧
      (∀ l₁ l₂ p q t, accepted ps = l₁ ++ p :: q :: l₂ → p.1 ≤ t → t < q.1 →
        value z t = some (match ip with
          | .LINEAR => p.2 + (q.2 - p.2) / (q.1 - p.1) * (t - p.1)
          | .PREVIOUS => p.2)) := by
  obtain ⟨z, h1, h2⟩ := C01_append ip ps
  obtain ⟨i1, i2, _⟩ := interp_spec ip _ (accepted_inc ps)
  refine ⟨z, h1, fun p hp => by rw [h2, i1 p hp], fun l₁ l₂ p q t he a b => by
    rw [h2, i2 l₁ l₂ p q t he a b]⟩

example : accepted [(0, 1), (2, 5), (1, 7), (4, 3)] = [(0, 1), (2, 5), (4, 3)] := by
  decide +kernel
example : ∃ z, built .LINEAR [(0, 1), (2, 5), (1, 7), (4, 3)] = .ok z ∧ value z 3 = some 4 := by
  obtain ⟨z, h1, h2⟩ := C01_append .LINEAR [(0, 1), (2, 5), (1, 7), (4, 3)]
  exact ⟨z, h1, by rw [h2]; decide +kernel⟩

/-! ## C02 append_sample ignores non-increasing times -/

/-- A late or repeated time changes nothing; a later time adds exactly one sample. -/
theorem C02_append_one (ip : Interpol) (x : Signal) (t v : ℚ) (hx : x.samples ≠ []) :
    (t ≤ x.endTime → appendSample0 ip x t v = .ok x) ∧
    (x.endTime < t → (∀ p ∈ x.samples, p.time ≤ x.endTime) →
      ∃ z, appendSample0 ip x t v = .ok z ∧ z.samples.length = x.samples.length + 1 ∧
        z.beginTime = x.beginTime ∧ z.endTime = t ∧
        z.samples.getLast? = some ⟨t, v, 0⟩ ∧
        z.samples.map (fun p => (p.time, p.value)) =
          x.samples.map (fun p => (p.time, p.value)) ++ [(t, v)]) := by
  constructor
  · intro h
    simp only [appendSample0, appendSample, if_pos (And.intro h hx)]
  · intro h hle
    have hc : ¬ (t ≤ x.endTime ∧ x.samples ≠ []) := fun h' => absurd h (not_lt.2 h'.1)
    simp only [appendSample0, appendSample.eq_def, if_neg hc]
    cases ip with
    | PREVIOUS => simp [hx]
    | LINEAR =>
      obtain ⟨b, hb⟩ : ∃ b, x.samples.getLast? = some b :=
        ⟨_, List.getLast?_eq_some_getLast hx⟩
      have hbt : t - b.time ≠ 0 := by
        have := hle b (List.mem_of_getLast? hb)
        intro h'; linarith
      obtain ⟨l, hl⟩ := getLast?_eq_some_append hb
      simp only [hb, qdiv, hbt, if_false, bind, Except.bind]
      refine ⟨_, rfl, ?_, rfl, rfl, ?_, ?_⟩
      · simp [setBackDerivative, hl]
      · simp
      · simp [setBackDerivative, hl]

/-- After any calls: times strictly increasing, begin and end at the first and last time, and
exactly the accepted pairs are stored. -/
theorem C02_append_all (ip : Interpol) (ps : List (ℚ × ℚ)) :
    ∃ z, built ip ps = .ok z ∧
      z.samples.map (fun p => (p.time, p.value)) = accepted ps ∧
      z.samples.Pairwise (fun p q => p.time < q.time) ∧
      (∀ p, z.samples.head? = some p → z.beginTime = p.time) ∧
      (∀ p, z.samples.getLast? = some p → z.endTime = p.time) := by
  refine ⟨_, appends_eq ip ps, ?_, ?_, ?_, ?_⟩
  · rw [linSig_samples, lin_times]
  · have h := accepted_inc ps
    rw [linSig_samples]
    rw [Inc, ← lin_times ip (accepted ps), List.pairwise_map] at h
    exact h
  · intro p hp
    rw [linSig_samples] at hp
    have h : (accepted ps).head? = some (p.time, p.value) := by
      rw [← lin_times ip (accepted ps), List.head?_map, hp]; rfl
    revert h
    cases accepted ps with
    | nil => simp
    | cons a l => intro h; simp at h; rw [linSig_begin, h]
  · intro p hp
    rw [linSig_samples] at hp
    have h : (accepted ps).getLast? = some (p.time, p.value) := by
      rw [← lin_times ip (accepted ps), List.getLast?_map, hp]; rfl
    rw [linSig_end h]

example : ∃ z, built .PREVIOUS [(0, 1), (2, 5), (2, 7), (1, 9), (4, 3)] = .ok z ∧
    z.samples.length = 3 := by
  obtain ⟨z, h1, h2, _⟩ := C02_append_all .PREVIOUS [(0, 1), (2, 5), (2, 7), (1, 9), (4, 3)]
  refine ⟨z, h1, ?_⟩
  have := congrArg List.length h2
  rw [List.length_map] at this
  rw [this]; decide +kernel

/-! ## C08 simplify changes the representation, never the signal -/

theorem C08_simplify (x : Signal) (h : Proper x) :
    ∃ z, simplify x = .ok z ∧ z.beginTime = x.beginTime ∧ z.endTime = x.endTime ∧ Proper z ∧
      (∀ t, t ≤ x.endTime → value z t = value x t ∧ leftValue z t = leftValue x t) ∧
      z.samples.length ≤ x.samples.length + 1 ∧
      (∃ b, z.samples.getLast? = some b ∧ b.time = x.endTime) := by
  obtain ⟨z, h1, h2, h3, h4, h5, h6, m, h7, h8⟩ := simplify_spec' h.wf
  refine ⟨z, h1, h2, h3, h4.proper, fun t ht => ⟨?_, ?_⟩, ?_, h6⟩
  · rw [value_eq, value_eq, h5 _ (by simpa using ht)]
  · rw [leftValue_eq, leftValue_eq, h5 _ (by simpa [le_pl_iff] using ht)]
  · have := h7.length_le
    rcases h8 with h8 | ⟨b, _, _, h8⟩
    · rw [h8]; omega
    · rw [h8]; simpa using this

example : Proper ⟨[⟨0, 0, 1⟩, ⟨1, 1, 1⟩, ⟨2, 2, 0⟩], 0, 5⟩ :=
  ⟨⟨by simp, by simp, by simp, by simp; norm_num⟩, by simp⟩

/-! ## C09 resize restricts a signal to [s,t] -/

/-- Part of C09: inside the domain, as long as some sample is at or after `s`, or the last
sample is flat.  Missing: a sloped last sample before `s` (see `C09_false`). -/
theorem C09_resize_partial (x : Signal) (s t v : ℚ) (hx : Ordered x) (h0 : x.beginTime ≤ s)
    (hst : s ≤ t) (hte : t ≤ x.endTime)
    (hcl : (∃ p ∈ x.samples, s ≤ p.time) ∨
      ∀ p, x.samples.getLast? = some p → p.derivative = 0) :
    ∃ z, resize x s t v = .ok z ∧ z.beginTime = s ∧ z.endTime = t ∧ Ordered z ∧
      (∀ u, s ≤ u → u ≤ t → value z u = value x u) ∧
      (∀ u, s < u → u ≤ t → leftValue z u = leftValue x u) := by
  obtain ⟨z, h1, h2, h3, h4, h5, _⟩ :=
    resize_inside v hx.wf0.wfb h0 hst hte (Or.inr hcl)
  refine ⟨z, h1, h2, h3, h4.ordered, fun u a b => ?_, fun u a b => ?_⟩
  · rw [value_eq, value_eq, h5 _ (by simpa using a) (by simpa using b)]
  · rw [leftValue_eq, leftValue_eq, h5 _ (by simpa using a) (by simpa [le_pl_iff] using b)]

/-- Part of C09: beyond the old end the new part carries the padding value. -/
theorem C09_resize_pad_partial (x : Signal) (s t v : ℚ) (hx : Ordered x) (h0 : x.beginTime ≤ s)
    (hse : s ≤ x.endTime) (hte : x.endTime < t)
    (hcl : (∃ p ∈ x.samples, s ≤ p.time) ∨
      ∀ p, x.samples.getLast? = some p → p.derivative = 0) :
    ∃ z, resize x s t v = .ok z ∧ z.beginTime = s ∧ z.endTime = t ∧ Ordered z ∧
      (∀ u, s ≤ u → u < x.endTime → value z u = value x u) ∧
      (∀ u, s < u → u ≤ x.endTime → leftValue z u = leftValue x u) ∧
      (∀ u, x.endTime ≤ u → value z u = some v) := by
  obtain ⟨z, h1, h2, h3, h4, h5, h6, _⟩ :=
    resize_beyond v hx.wf0 h0 hse hte (Or.inr hcl)
  refine ⟨z, h1, h2, h3, h4.ordered, fun u a b => ?_, fun u a b => ?_, fun u a => ?_⟩
  · rw [value_eq, value_eq, h5 _ (by simpa using a) (by simpa using b)]
  · rw [leftValue_eq, leftValue_eq, h5 _ (by simpa using a) (by simpa using b)]
  · rw [value_eq, h6 _ (by simpa using a)]

example : Ordered ⟨[⟨0, 0, 1⟩, ⟨5, 5, -1⟩], 0, 9⟩ ∧
    ∃ p ∈ (⟨[⟨0, 0, 1⟩, ⟨5, 5, -1⟩], 0, 9⟩ : Signal).samples, (3 : ℚ) ≤ p.time :=
  ⟨⟨by simp, by simp, by simp, by simp; norm_num⟩, ⟨5, 5, -1⟩, by simp, by norm_num⟩

/-- The full claim is false: the line `t ↦ t` on `[0,10]` stored as one sample, resized to
`[5,10]`, becomes the constant 5. -/
theorem C09_false : ∃ x : Signal, Ordered x ∧ x.beginTime ≤ 5 ∧ 10 ≤ x.endTime ∧
    value x 8 = some 8 ∧
    ∃ z, resize x 5 10 0 = .ok z ∧ value z 8 = some 5 :=
  ⟨⟨[⟨0, 0, 1⟩], 0, 10⟩, ⟨by simp, by simp, by simp, by simp⟩, by norm_num, by norm_num,
    by decide +kernel, ⟨[⟨5, 5, 0⟩], 5, 10⟩, by decide +kernel, by decide +kernel⟩

/-- An inverted window empties the signal, but a deviation below the code's tolerance is
read as the point window. -/
theorem C09_resize_inverted (x : Signal) (s t v : ℚ) (h : t < s - 1 / 100000000000000) :
    resize x s t v = .ok ⟨[], 0, 0⟩ := by
  unfold resize tol
  rw [if_pos h]

/-! ## C10 shift translates a signal in time -/

theorem C10_shift (x : Signal) (a : ℚ) :
    (x.shift a).beginTime = x.beginTime + a ∧ (x.shift a).endTime = x.endTime + a ∧
    (∀ t, value (x.shift a) (t + a) = value x t) ∧
    (∀ t, leftValue (x.shift a) (t + a) = leftValue x t) := by
  refine ⟨rfl, rfl, fun t => ?_, fun t => ?_⟩
  · rw [value_eq, value_eq, ← pl_shift, val_shift]
  · rw [leftValue_eq, leftValue_eq, ← mi_shift, val_shift]

example : value ((⟨[⟨0, 1, 2⟩, ⟨3, 4, 0⟩], 0, 5⟩ : Signal).shift 7) (2 + 7) = some 5 := by
  rw [(C10_shift _ _).2.2.1]; decide +kernel

end Props
end STLRom
