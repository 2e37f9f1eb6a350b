import Verif.Proofs.TopSup
import Verif.Props.Pointwise

/-!
# Properties C11–C14: unbounded and timed `eventually` and `always` on signals
-/

namespace STLRom
namespace Props
open Signal Spec

/-! ## C11 eventually without bound -/

/-- C11: both library functions, and both methods on a fresh target.  Missing from the full
claim: `compute_eventually` on a target that already holds samples (see `C11_false`). -/
theorem C11_eventually_partial (x : Signal) (B : ℚ) (hx : Regular x) (hB : Bounded B x) :
    (∃ z, computeEventuallyM B Signal.empty x = .ok z ∧ computeEventually B x = .ok z ∧
      z.beginTime = x.beginTime ∧ z.endTime = x.endTime ∧ Proper z ∧
      ∀ t, x.beginTime ≤ t → t ≤ x.endTime → SupAt z t x t x.endTime) ∧
    (∃ z, computeGloballyM B x = .ok z ∧ computeGlobally B x = .ok z ∧
      z.beginTime = x.beginTime ∧ z.endTime = x.endTime ∧ Proper z ∧
      ∀ t, x.beginTime ≤ t → t ≤ x.endTime → InfAt z t x t x.endTime) := by
  have hbe := hx.wf.begin_le_end
  have hg : GC x := hx.reg.elim SInc.gc CG.gc
  have hb := hB.lower hx.wf.toWF0 (pl x.endTime) (by simpa using hbe) le_rfl
  constructor
  · obtain ⟨z, h1, h2, h3, h4, h5, _⟩ := computeEventually_spec hx.wf.toWF0 hg hb.1
    refine ⟨z, h1, h1, h2, h3, h4.proper, fun t c d => ⟨_, h4.value (by rw [h2]; exact c), ?_⟩⟩
    exact (h5 (pl t) (by simpa using c) (by simpa using d)).isLUB hx.wf.toWF0 c
  · obtain ⟨z, h1, h2, h3, h4, h5, _⟩ := computeGlobally_spec hx.wf.toWF0 hg hb.2
    refine ⟨z, h1, h1, h2, h3, h4.proper, fun t c d => ⟨_, h4.value (by rw [h2]; exact c), ?_⟩⟩
    exact (h5 (pl t) (by simpa using c) (by simpa using d)).isGLB hx.wf.toWF0 c

/-- A tent: up from 0 to 4 on `[0,2]`, down to 0 on `[2,4]`. -/
def tent : Signal := ⟨[⟨0, 0, 2⟩, ⟨2, 4, -2⟩, ⟨4, 0, 0⟩], 0, 4⟩

theorem tent_regular : Regular tent :=
  ⟨⟨⟨by decide +kernel, by simp [tent], by decide +kernel, by decide +kernel⟩,
    by decide +kernel⟩, Or.inl (by unfold StrictTimes; decide +kernel)⟩

theorem tent_values (t : ℚ) (h0 : 0 ≤ t) :
    value tent t = some (if t < 2 then 2 * t else if t < 4 then 4 - 2 * (t - 2) else 0) := by
  simp only [value, tent, List.filter]
  split_ifs with h2 h3
  · simp [h0, not_le.2 h2, not_le.2 (show t < 4 by linarith)]
  · simp [h0, not_lt.1 h2, not_le.2 h3]; ring
  · simp [h0, not_lt.1 h2, not_lt.1 h3]

theorem tent_left (t : ℚ) (h0 : 0 < t) (h1 : t ≤ 4) :
    leftValue tent t = some (if t ≤ 2 then 2 * t else 4 - 2 * (t - 2)) := by
  simp only [leftValue, tent, List.filter]
  split_ifs with h2
  · simp [h0, not_lt.2 h2, not_lt.2 h1]
  · simp [h0, not_le.1 h2, not_lt.2 h1]; ring

theorem tent_bounded : Bounded 10000 tent := by
  refine ⟨fun t v h0 h1 h => ?_, fun t v h0 h1 h => ?_⟩
  · simp only [tent] at h0 h1
    rw [tent_values t h0] at h
    obtain rfl := Option.some.inj h
    split_ifs <;> constructor <;> linarith
  · simp only [tent] at h0 h1
    rw [tent_left t h0 h1] at h
    obtain rfl := Option.some.inj h
    split_ifs <;> constructor <;> linarith

example : ∃ z, computeEventuallyM 10000 Signal.empty tent = .ok z ∧
    ∀ t, 0 ≤ t → t ≤ 4 → SupAt z t tent t 4 := by
  obtain ⟨z, h, _, _, _, _, h'⟩ := (C11_eventually_partial tent 10000 tent_regular tent_bounded).1
  exact ⟨z, h, h'⟩

/-- On a target that is not empty `compute_eventually` leaves the old samples behind the new
ones: at time 4 the stale value 99 is read instead of 0. -/
theorem C11_false : ∃ old z : Signal, Regular old ∧ Regular tent ∧ Bounded 10000 tent ∧
    computeEventuallyM 10000 old tent = .ok z ∧ ¬ SupAt z 4 tent 4 4 := by
  refine ⟨Signal.single 0 99, ⟨[⟨0, 4, 0⟩, ⟨2, 4, -2⟩, ⟨4, 0, 0⟩, ⟨0, 99, 0⟩], 0, 4⟩,
    ⟨⟨⟨by decide +kernel, by simp [Signal.single], by decide +kernel, by decide +kernel⟩,
      by decide +kernel⟩, Or.inl (by unfold StrictTimes; decide +kernel)⟩,
    tent_regular, tent_bounded, by decide +kernel, ?_⟩
  rintro ⟨v, h1, h2⟩
  have e : value ⟨[⟨0, 4, 0⟩, ⟨2, 4, -2⟩, ⟨4, 0, 0⟩, ⟨0, 99, 0⟩], 0, 4⟩ 4 = some 99 := by
    decide +kernel
  rw [e] at h1
  obtain rfl := Option.some.inj h1
  have : (99 : ℚ) ≤ 0 := h2.2 (by
    rintro w ⟨r, c, d, h⟩
    obtain rfl := le_antisymm d c
    have e : value tent 4 = some 0 := by decide +kernel
    rw [e] at h
    exact (Option.some.inj h).ge)
  norm_num at this

/-! ## C12 timed eventually, C13 timed always -/

/-- C12.  Missing from the full claim: a signal whose sloped last sample lies before the first
window's end (`CutSafe`, see `C12_false`), and the value at the closing time when the signal
jumps exactly there (see `C12_closing_false`). -/
theorem C12_timed_eventually_partial (old x : Signal) (B a b : ℚ) (hx : Regular x)
    (hB : Bounded B x) (ha : 0 ≤ a) (hab : a ≤ b) (hc : CutSafe x (b - a)) :
    ∃ z, computeTimedEventually B old x a b = .ok z ∧
      z.beginTime = x.beginTime - a ∧ z.endTime = x.endTime - a ∧ Proper z ∧
      ∀ t, z.beginTime ≤ t → t ≤ z.endTime → (t < z.endTime ∨ ContinuousAt x x.endTime ∨
          x.endTime - x.beginTime ≤ b - a) →
        SupAt z t x (t + a) (min (t + b) x.endTime) := by
  have hbe := hx.wf.begin_le_end
  obtain ⟨z, h1, h2, h3, h4, h5, _⟩ := computeTimedEventually_spec (old := old) (B := B) hx.wf.toWF0
    hx.reg ha hab hc.keeps (fun σ c d => (hB.lower hx.wf.toWF0 σ c d).1)
  refine ⟨z, h1, h2, h3, (h4.2 hx.wf).proper, fun t c d e => ⟨_, h4.1.value c, ?_⟩⟩
  have := h5 (pl t) (by simpa using c) (by simpa using d) (by
    intro g g'
    rcases e with e | e | e
    · exact Or.inl (by simpa using e)
    · refine Or.inr ?_
      have hlt : x.beginTime < x.endTime := by linarith
      rw [ContinuousAt, hx.wf.value hbe, hx.wf.leftValue hlt] at e
      exact (Option.some.inj e).symm
    · linarith)
  rw [pl_shift, pl_shift, show min (pl (t + b)) (pl x.endTime) = pl (min (t + b) x.endTime) by
    rcases le_total (t + b) x.endTime with h | h
    · rw [min_eq_left h, min_eq_left (by simpa using h)]
    · rw [min_eq_right h, min_eq_right (by simpa using h)]] at this
  exact this.isLUB hx.wf.toWF0 (by linarith)

/-- C13, as C12. -/
theorem C13_timed_globally_partial (old x : Signal) (B a b : ℚ) (hx : Regular x)
    (hB : Bounded B x) (ha : 0 ≤ a) (hab : a ≤ b) (hc : CutSafe x (b - a)) :
    ∃ z, computeTimedGlobally B old x a b = .ok z ∧
      z.beginTime = x.beginTime - a ∧ z.endTime = x.endTime - a ∧ Proper z ∧
      ∀ t, z.beginTime ≤ t → t ≤ z.endTime → (t < z.endTime ∨ ContinuousAt x x.endTime ∨
          x.endTime - x.beginTime ≤ b - a) →
        InfAt z t x (t + a) (min (t + b) x.endTime) := by
  have hbe := hx.wf.begin_le_end
  obtain ⟨z, h1, h2, h3, h4, h5, _⟩ := computeTimedGlobally_spec (old := old) (B := B) hx.wf.toWF0
    hx.reg ha hab hc.keeps (fun σ c d => (hB.lower hx.wf.toWF0 σ c d).2)
  refine ⟨z, h1, h2, h3, (h4.2 hx.wf).proper, fun t c d e => ⟨_, h4.1.value c, ?_⟩⟩
  have := h5 (pl t) (by simpa using c) (by simpa using d) (by
    intro g g'
    rcases e with e | e | e
    · exact Or.inl (by simpa using e)
    · refine Or.inr ?_
      have hlt : x.beginTime < x.endTime := by linarith
      rw [ContinuousAt, hx.wf.value hbe, hx.wf.leftValue hlt] at e
      exact (Option.some.inj e).symm
    · linarith)
  rw [pl_shift, pl_shift, show min (pl (t + b)) (pl x.endTime) = pl (min (t + b) x.endTime) by
    rcases le_total (t + b) x.endTime with h | h
    · rw [min_eq_left h, min_eq_left (by simpa using h)]
    · rw [min_eq_right h, min_eq_right (by simpa using h)]] at this
  exact this.isGLB hx.wf.toWF0 (by linarith)

theorem tent_cut (len : ℚ) : CutSafe tent len := fun _ _ => Or.inr (by
  intro p hp
  simp only [tent, List.getLast?_cons_cons, List.getLast?_singleton, Option.some.injEq] at hp
  rw [← hp])

example : ∃ z, computeTimedEventually 10000 Signal.empty tent 1 2 = .ok z ∧
    ∀ t, -1 ≤ t → t ≤ 3 → SupAt z t tent (t + 1) (min (t + 2) 4) := by
  obtain ⟨z, h1, h2, h3, _, h4⟩ := C12_timed_eventually_partial Signal.empty tent 10000 1 2
    tent_regular tent_bounded (by norm_num) (by norm_num) (tent_cut _)
  refine ⟨z, h1, fun t c d => h4 t ?_ ?_ (Or.inr (Or.inl (by decide +kernel)))⟩
  · rw [h2]; simp only [tent]; linarith
  · rw [h3]; simp only [tent]; linarith

example : ∃ z, computeTimedGlobally 10000 Signal.empty tent 0 1 = .ok z ∧
    ∀ t, 0 ≤ t → t ≤ 4 → InfAt z t tent t (min (t + 1) 4) := by
  obtain ⟨z, h1, h2, h3, _, h4⟩ := C13_timed_globally_partial Signal.empty tent 10000 0 1
    tent_regular tent_bounded (by norm_num) (by norm_num) (tent_cut _)
  refine ⟨z, h1, fun t c d => ?_⟩
  have := h4 t ?_ ?_ (Or.inr (Or.inl (by decide +kernel)))
  · simpa [tent] using this
  · rw [h2]; simp only [tent]; linarith
  · rw [h3]; simp only [tent]; linarith

/-- The line `t ↦ t` on `[0,10]` stored as one sample. -/
def ramp : Signal := ⟨[⟨0, 0, 1⟩], 0, 10⟩

theorem ramp_regular : Regular ramp :=
  ⟨⟨⟨by decide +kernel, by simp [ramp], by decide +kernel, by decide +kernel⟩,
    by decide +kernel⟩, Or.inl (by unfold StrictTimes; decide +kernel)⟩

theorem ramp_bounded : Bounded 10000 ramp := by
  refine ⟨fun t v h0 h1 h => ?_, fun t v h0 h1 h => ?_⟩
  · simp only [ramp] at h0 h1
    simp only [value, ramp, List.filter, h0, decide_true, List.getLast?_singleton,
      Option.map_some, Option.some.injEq] at h
    constructor <;> linarith
  · simp only [ramp] at h0 h1
    simp only [leftValue, ramp, List.filter, h0, decide_true, List.getLast?_singleton,
      Option.map_some, Option.some.injEq] at h
    constructor <;> linarith

theorem valuesOn_upper {x : Signal} {s u v w : ℚ} (h : IsLUB (valuesOn x s u) v) (r : ℚ)
    (h1 : s ≤ r) (h2 : r ≤ u) (h3 : value x r = some w) : w ≤ v := h.1 ⟨r, h1, h2, h3⟩

/-- C12 in full is false: on the line `t ↦ t` over `[0,10]`, `ev_[0,3]` at time 1 gives 3, while
the signal reaches 4 in the window. -/
theorem C12_false : ∃ z, Regular ramp ∧ Bounded 10000 ramp ∧
    computeTimedEventually 10000 Signal.empty ramp 0 3 = .ok z ∧
    ¬ SupAt z 1 ramp (1 + 0) (min (1 + 3) ramp.endTime) := by
  refine ⟨⟨[⟨0, 3, 0⟩, ⟨3, 3, 1⟩, ⟨7, 10, 0⟩, ⟨10, 10, 0⟩], 0, 10⟩, ramp_regular, ramp_bounded,
    by decide +kernel, ?_⟩
  rintro ⟨v, h1, h2⟩
  have e : value ⟨[⟨0, 3, 0⟩, ⟨3, 3, 1⟩, ⟨7, 10, 0⟩, ⟨10, 10, 0⟩], 0, 10⟩ 1 = some 3 := by
    decide +kernel
  rw [e] at h1
  obtain rfl := Option.some.inj h1
  have := valuesOn_upper h2 4 (by norm_num) (by decide +kernel)
    (show value ramp 4 = some 4 by decide +kernel)
  norm_num at this

/-- A jump from 5 to 1 exactly at the end: `ev_[0,1]` at the end gives 5 instead of 1. -/
theorem C12_closing_false : ∃ x z : Signal, Regular x ∧ Bounded 10000 x ∧ CutSafe x 1 ∧
    computeTimedEventually 10000 Signal.empty x 0 1 = .ok z ∧
    ¬ SupAt z 2 x (2 + 0) (min (2 + 1) x.endTime) := by
  refine ⟨⟨[⟨0, 5, 0⟩, ⟨2, 1, 0⟩], 0, 2⟩, ⟨[⟨0, 5, 0⟩, ⟨2, 5, 0⟩], 0, 2⟩,
    ⟨⟨⟨by simp, by simp, by decide +kernel, by decide +kernel⟩, by decide +kernel⟩,
      Or.inl (by unfold StrictTimes; decide +kernel)⟩,
    ⟨fun t v h0 h1 h => ?_, fun t v h0 h1 h => ?_⟩, fun _ _ => Or.inr (by simp),
    by decide +kernel, ?_⟩
  · simp only at h0 h1
    by_cases h2 : 2 ≤ t
    · simp [value, List.filter, h0, h2] at h
      constructor <;> linarith
    · simp [value, List.filter, h0, h2] at h
      constructor <;> linarith
  · simp only at h0 h1
    simp [leftValue, List.filter, h0, not_lt.2 h1] at h
    constructor <;> linarith
  · rintro ⟨v, h1, h2⟩
    have e : value ⟨[⟨0, 5, 0⟩, ⟨2, 5, 0⟩], 0, 2⟩ 2 = some 5 := by decide +kernel
    rw [e] at h1
    obtain rfl := Option.some.inj h1
    have : (5 : ℚ) ≤ 1 := h2.2 (by
      rintro w ⟨r, c, d, h⟩
      have hr : r = 2 := le_antisymm (d.trans (by decide +kernel)) (by linarith)
      subst hr
      have e : value ⟨[⟨0, 5, 0⟩, ⟨2, 1, 0⟩], 0, 2⟩ 2 = some 1 := by decide +kernel
      rw [e] at h
      exact (Option.some.inj h).ge)
    norm_num at this

/-- C13 in full is false, on the same line turned upside down. -/
theorem C13_false : ∃ z, Regular (computeNot ramp) ∧ Bounded 10000 (computeNot ramp) ∧
    computeTimedGlobally 10000 Signal.empty (computeNot ramp) 0 3 = .ok z ∧
    ¬ InfAt z 1 (computeNot ramp) (1 + 0) (min (1 + 3) (computeNot ramp).endTime) := by
  refine ⟨⟨[⟨0, -3, 0⟩, ⟨3, -3, -1⟩, ⟨7, -10, 0⟩, ⟨10, -10, 0⟩], 0, 10⟩,
    ⟨ramp_regular.wf.not.proper, Or.inl (by unfold StrictTimes; decide +kernel)⟩,
    ⟨fun t v h0 h1 h => ?_, fun t v h0 h1 h => ?_⟩, by decide +kernel, ?_⟩
  · rw [(C03_not ramp).2.2.1, Option.map_eq_some_iff] at h
    obtain ⟨w, h, rfl⟩ := h
    have := ramp_bounded.1 t w h0 h1 h
    constructor <;> linarith
  · rw [(C03_not ramp).2.2.2.1, Option.map_eq_some_iff] at h
    obtain ⟨w, h, rfl⟩ := h
    have := ramp_bounded.2 t w h0 h1 h
    constructor <;> linarith
  · rintro ⟨v, h1, h2⟩
    have e : value ⟨[⟨0, -3, 0⟩, ⟨3, -3, -1⟩, ⟨7, -10, 0⟩, ⟨10, -10, 0⟩], 0, 10⟩ 1 =
      some (-3) := by decide +kernel
    rw [e] at h1
    obtain rfl := Option.some.inj h1
    have : (-3 : ℚ) ≤ -4 := h2.1 ⟨4, by norm_num, by decide +kernel, by decide +kernel⟩
    norm_num at this

/-! ## C14 duality -/

/-- C14: for every signal whatsoever and every window, the two copies fail together and
otherwise build the same samples up to sign. -/
theorem C14_duality (B : ℚ) (old x : Signal) (a b : ℚ) :
    computeTimedGlobally B old x a b =
      (computeTimedEventually B old (computeNot x) a b).map computeNot := by
  have := computeTimedGlobally_not B old (computeNot x) a b
  rwa [computeNot_computeNot] at this

example : computeTimedGlobally 10000 Signal.empty tent 0 1 =
    .ok ⟨[⟨0, 0, 2⟩, ⟨3/2, 3, -2⟩, ⟨3, 0, 0⟩, ⟨4, 0, 0⟩], 0, 4⟩ := by decide +kernel

end Props
end STLRom
