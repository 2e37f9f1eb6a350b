import Verif.Proofs.Members
import Verif.Props.Temporal

/-!
# Property C68: the bounded members of `Signal`
-/

namespace STLRom
namespace Props
open Signal Spec

/-- C68 in full: over a window `[0,a]` that fits, `compute_bounded_eventually` gives the greatest
value in the window and `compute_bounded_globally` the least. -/
def C68_full : Prop :=
  ∀ (old x : Signal) (B a : ℚ), Regular x → Bounded B x → 0 ≤ x.beginTime → 0 < a →
    a ≤ x.endTime - x.beginTime →
    (∃ z, computeBoundedEventuallyM B old x a = .ok z ∧
      ∀ t, x.beginTime ≤ t → t < x.endTime → SupAt z t x t (min (t + a) x.endTime)) ∧
    ∃ z, computeBoundedGloballyM B old x a = .ok z ∧
      ∀ t, x.beginTime ≤ t → t < x.endTime → InfAt z t x t (min (t + a) x.endTime)

/-- C68, what holds: both return a signal on the interval of `x`, the first never below `x` and
the second never above.  Missing: equality with the greatest and least value in the window, which
is false (see `C68_false` and `C68_high_false`). -/
theorem C68_partial (old x : Signal) (B a : ℚ) (hx : Regular x) (hB : Bounded B x)
    (h0 : 0 ≤ x.beginTime) (ha : 0 < a) (hab : a ≤ x.endTime - x.beginTime) :
    (∃ z, computeBoundedEventuallyM B old x a = .ok z ∧ z.beginTime = x.beginTime ∧
      z.endTime = x.endTime ∧ Proper z ∧
      ∀ t, x.beginTime ≤ t → t < x.endTime →
        ∃ v w, value x t = some v ∧ value z t = some w ∧ v ≤ w) ∧
    ∃ z, computeBoundedGloballyM B old x a = .ok z ∧ z.beginTime = x.beginTime ∧
      z.endTime = x.endTime ∧ Proper z ∧
      ∀ t, x.beginTime ≤ t → t < x.endTime →
        ∃ v w, value x t = some v ∧ value z t = some w ∧ w ≤ v := by
  constructor
  · obtain ⟨z, h1, h2, h3, h4, h5⟩ := computeBoundedEventuallyM_ge (B := B) old hx.wf.toWF0
      hx.reg ha (by linarith) (by linarith) (fun σ c d => (hB.lower hx.wf.toWF0 σ c d).1)
    refine ⟨z, h1, h2, h3, h4.proper, fun t c d => ⟨_, _, hx.wf.value c, h4.value (by rw [h2]; exact c),
      h5 (pl t) (by simpa using c) (by simpa using d)⟩⟩
  · obtain ⟨z, h1, h2, h3, h4, h5⟩ := computeBoundedGloballyM_le (B := B) old hx.wf.toWF0
      hx.reg ha (by linarith) (by linarith) (fun σ c d => (hB.lower hx.wf.toWF0 σ c d).2)
    refine ⟨z, h1, h2, h3, h4.proper, fun t c d => ⟨_, _, hx.wf.value c, h4.value (by rw [h2]; exact c),
      h5 (pl t) (by simpa using c) (by simpa using d)⟩⟩

/-- A window that does not fit, or of length 0, is undefined behaviour in both members. -/
theorem C68_undefined (old x : Signal) (B a : ℚ) (hx : Proper x)
    (h : a ≤ 0 ∨ x.endTime - x.beginTime < a) :
    computeBoundedEventuallyM B old x a = .error .ub ∧
      computeBoundedGloballyM B old x a = .error .ub := by
  have h' : a ≤ 0 ∨ x.endTime < x.beginTime + a := h.imp id fun h => by linarith
  exact ⟨computeBoundedEventuallyM_ub old hx.wf.toWF0 h',
    computeBoundedGloballyM_ub old hx.wf.toWF0 h'⟩

example : (∃ z, computeBoundedEventuallyM 10000 Signal.empty tent 1 = .ok z ∧
      z.beginTime = 0 ∧ z.endTime = 4) ∧
    computeBoundedGloballyM 10000 Signal.empty tent 5 = .error .ub := by
  refine ⟨?_, (C68_undefined _ tent _ 5 tent_regular.toProper (Or.inr (by
    simp only [tent]; norm_num))).2⟩
  obtain ⟨⟨z, h1, h2, h3, _⟩, _⟩ := C68_partial Signal.empty tent 10000 1 tent_regular tent_bounded
    (by simp [tent]) (by norm_num) (by simp only [tent]; norm_num)
  exact ⟨z, h1, h2, h3⟩

/-- Too low: on the line `t ↦ t` over `[0,10]` with window `[0,1]`, the value at time 5 is 5
instead of 6. -/
theorem C68_false : ¬ C68_full := by
  intro h
  obtain ⟨⟨z, h1, h2⟩, _⟩ := h Signal.empty ramp 10000 1 ramp_regular ramp_bounded (by simp [ramp])
    (by norm_num) (by simp only [ramp]; norm_num)
  have e : computeBoundedEventuallyM 10000 Signal.empty ramp 1 =
      .ok ⟨[⟨0, 0, 1⟩, ⟨9, 10, 0⟩, ⟨10, 10, 0⟩], 0, 10⟩ := by decide +kernel
  rw [e, Except.ok.injEq] at h1
  subst h1
  obtain ⟨v, h3, h4⟩ := h2 5 (by simp [ramp]) (by simp only [ramp]; norm_num)
  have e : value ⟨[⟨0, 0, 1⟩, ⟨9, 10, 0⟩, ⟨10, 10, 0⟩], 0, 10⟩ 5 = some 5 := by decide +kernel
  rw [e] at h3
  obtain rfl := Option.some.inj h3
  have := valuesOn_upper h4 6 (by norm_num) (by decide +kernel)
    (show value ramp 6 = some 6 by decide +kernel)
  norm_num at this

/-- Too high: on the line `t ↦ -t` over `[0,10]` with window `[0,1]`, `compute_bounded_eventually`
gives 0 at time 5, where the signal is at most -5 from then on. -/
theorem C68_high_false : ∃ x z : Signal, Regular x ∧
    computeBoundedEventuallyM 10000 Signal.empty x 1 = .ok z ∧ value z 5 = some 0 ∧
    value x 5 = some (-5) ∧ ∀ t v, 5 ≤ t → value x t = some v → v ≤ -5 := by
  refine ⟨computeNot ramp, ⟨[⟨0, 0, 0⟩, ⟨9, -9, -1⟩, ⟨10, -10, 0⟩], 0, 10⟩,
    ⟨ramp_regular.wf.not.proper, Or.inl (by unfold StrictTimes; decide +kernel)⟩,
    by decide +kernel, by decide +kernel, by decide +kernel, fun t v h0 h => ?_⟩
  have h1 : (0 : ℚ) ≤ t := by linarith
  rw [(C03_not ramp).2.2.1, Option.map_eq_some_iff] at h
  obtain ⟨w, h, rfl⟩ := h
  simp only [value, ramp, List.filter, h1, decide_true, List.getLast?_singleton,
      Option.map_some, Option.some.injEq] at h
  linarith

/-- A signal that begins before time 0: the new signal resized inside is empty and its `front()`
is read. -/
theorem C68_early_false : ∃ x : Signal, Regular x ∧ Bounded 10000 x ∧
    (1 : ℚ) ≤ x.endTime - x.beginTime ∧
    computeBoundedEventuallyM 10000 Signal.empty x 1 = .error .ub ∧
    computeBoundedGloballyM 10000 Signal.empty x 1 = .error .ub := by
  refine ⟨⟨[⟨-4, 1, 0⟩], -4, 0⟩, ⟨⟨⟨by simp, by simp, by decide +kernel, by decide +kernel⟩,
    by decide +kernel⟩, Or.inl (by unfold StrictTimes; decide +kernel)⟩,
    ⟨fun t v h0 h1 h => ?_, fun t v h0 h1 h => ?_⟩, by norm_num, by decide +kernel,
    by decide +kernel⟩
  · simp only at h0
    simp [value, List.filter, h0] at h
    constructor <;> linarith
  · simp only at h0
    simp [leftValue, List.filter, h0] at h
    constructor <;> linarith

end Props
end STLRom
