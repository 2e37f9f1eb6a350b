import Verif.Spec.Signal
import Verif.Proofs.Boolean

/-!
# Properties C48, C49, C50: Boolean signals and time robustness
-/

namespace STLRom
namespace Props
open Signal Spec

/-- The value of `y` at `t` is positive. -/
def PositiveAt (y : Signal) (t : ℚ) : Prop := ∃ v, value y t = some v ∧ 0 < v

/-- `y` is positive on some interval that starts right after `t`. -/
def PositiveAfter (y : Signal) (t : ℚ) : Prop := ∃ ε > 0, ∀ s, t < s → s < t + ε → PositiveAt y s

/-- No piece of `y` starts at zero and rises. -/
def NoRiseFromZero (y : Signal) : Prop := ∀ p ∈ y.samples, ¬ (p.value = 0 ∧ 0 < p.derivative)

/-- Every sample is later than the one before. -/
def StrictTimes (y : Signal) : Prop := y.samples.Pairwise fun p q => p.time < q.time

theorem holds_iff_positiveAfter {y : Signal} (h : Proper y) {t : ℚ} (ht : y.beginTime ≤ t) :
    Holds y t ↔ PositiveAfter y t := by
  rw [holds_iff h.sorted]
  have hv : ∃ v, val y.samples (pl t) = some v := by
    have := h.wf.value ht
    rw [Spec.value_eq] at this
    exact ⟨_, this⟩
  rw [PositiveAfter]
  simp only [hv, true_and, PositiveAt, Spec.value_eq]

/-! ## C48 -/

/-- C48: `compute_boolean(y)(t)` is 1 where `y(t) > 0` and 0 where `y(t) <= 0`. -/
def C48_full : Prop := ∀ y : Signal, Proper y → ∃ b, computeBoolean y = .ok b ∧
  ∀ t, y.beginTime ≤ t → t ≤ y.endTime → ∃ v, value y t = some v ∧
    value b t = some (if 0 < v then 1 else 0)

/-- Proved part of C48.  Missing: pieces that start at zero and rise (`C48_false`), the end
time, and the single time of an upward crossing, where the Boolean signal is already 1. -/
theorem C48_partial {y : Signal} (h : Proper y) (h0 : NoRiseFromZero y) :
    ∃ b, computeBoolean y = .ok b ∧ b.beginTime = y.beginTime ∧ b.endTime = y.endTime ∧
      ∀ t, y.beginTime ≤ t → t < y.endTime →
        (PositiveAfter y t → value b t = some 1) ∧ (¬ PositiveAfter y t → value b t = some 0) := by
  obtain ⟨b, h1, h2, h3, hv⟩ := computeBoolean_val h.wf h0
  refine ⟨b, h1, h2, h3, fun t ht1 ht2 => ?_⟩
  obtain ⟨p, hp, hb⟩ := hv t ht1 ht2
  rw [← holds_iff_positiveAfter h ht1, Spec.value_eq, hb]
  constructor
  · rintro ⟨q, hq, ht⟩
    rw [hp] at hq
    cases hq
    rw [if_pos ht]
  · intro hn
    rw [if_neg fun ht => hn ⟨p, hp, ht⟩]

/-- The same where the value is not zero, in the words of C48. -/
theorem C48_nonzero_partial {y : Signal} (h : Proper y) (h0 : NoRiseFromZero y) :
    ∃ b, computeBoolean y = .ok b ∧ ∀ t v, y.beginTime ≤ t → t < y.endTime →
      value y t = some v → v ≠ 0 → value b t = some (if 0 < v then 1 else 0) := by
  obtain ⟨b, h1, h2, h3, hv⟩ := computeBoolean_val h.wf h0
  refine ⟨b, h1, fun t v ht1 ht2 hyv hne => ?_⟩
  obtain ⟨p, hp, hb⟩ := hv t ht1 ht2
  rw [Spec.value_eq, val, hp] at hyv
  simp only [Option.map_some, pl_time, Option.some.injEq] at hyv
  rw [Spec.value_eq, hb]
  have : trueAt p t ↔ 0 < v := by
    unfold trueAt
    rw [hyv]
    exact ⟨fun h => h.resolve_right fun h => hne h.1, Or.inl⟩
  simp only [this]

/-- A trace that falls through zero, waits and rises through zero. -/
def hillSig : Signal := ⟨[⟨0, 1, -1⟩, ⟨2, -1, 0⟩, ⟨3, -1, 1⟩, ⟨5, 1, 0⟩], 0, 5⟩

theorem hillSig_proper : Proper hillSig where
  ne := by decide
  head := by decide +kernel
  sorted := by decide +kernel
  le_end := by decide +kernel
  strict := by decide +kernel

theorem hillSig_noRise : NoRiseFromZero hillSig := by
  unfold NoRiseFromZero
  decide +kernel

example : ∃ b, computeBoolean hillSig = .ok b ∧ ∀ t v, 0 ≤ t → t < 5 → value hillSig t = some v →
    v ≠ 0 → value b t = some (if 0 < v then 1 else 0) :=
  C48_nonzero_partial hillSig_proper hillSig_noRise

example : (computeBoolean hillSig).map Signal.samples = .ok [⟨0, 1, 0⟩, ⟨1, 0, 0⟩, ⟨4, 1, 0⟩] := by
  decide +kernel

/-- A trace that starts at zero and rises. -/
def rampSig : Signal := ⟨[⟨0, 0, 1⟩, ⟨2, 2, 0⟩], 0, 2⟩

theorem rampSig_proper : Proper rampSig where
  ne := by decide
  head := by decide +kernel
  sorted := by decide +kernel
  le_end := by decide +kernel
  strict := by decide +kernel

/-- C48 fails: on a piece that starts at zero and rises the Boolean signal stays 0. -/
theorem C48_false : ¬ C48_full := by
  intro h
  obtain ⟨b, h1, h2⟩ := h rampSig rampSig_proper
  obtain ⟨v, hv, hb⟩ := h2 1 (by decide +kernel) (by decide +kernel)
  have e : computeBoolean rampSig = .ok ⟨[⟨0, 0, 0⟩], 0, 2⟩ := by decide +kernel
  rw [e] at h1
  cases h1
  have e1 : value rampSig 1 = some 1 := by decide +kernel
  have e2 : value ⟨[⟨0, 0, 0⟩], 0, 2⟩ 1 = some 0 := by decide +kernel
  rw [e1] at hv
  cases hv
  rw [e2] at hb
  revert hb
  decide +kernel

/-! ## C49 -/

/-- Where the truth value of `y` seen at `t` began: the same from `c` to `t`, and either `c` is
the begin time or the truth value was the opposite just before `c`. -/
structure SinceChange (T : ℚ → Prop) (b c t : ℚ) : Prop where
  begin_le : b ≤ c
  le : c ≤ t
  same : ∀ s, c ≤ s → s ≤ t → (T s ↔ T t)
  changed : c = b ∨ ∃ e, b ≤ e ∧ e < c ∧ ∀ s, e ≤ s → s < c → (T s ↔ ¬ T t)

/-- C49: positive exactly where `y` is true, and the magnitude is the time since the last change
of truth, plus `1e-14`. -/
def C49_full : Prop := ∀ y : Signal, Proper y → ∃ z, computeLeftTimeRob y = .ok z ∧
  ∀ t, y.beginTime ≤ t → t ≤ y.endTime → ∃ c, SinceChange (PositiveAt y) y.beginTime c t ∧
    (PositiveAt y t → value z t = some (tol + (t - c))) ∧
    (¬ PositiveAt y t → value z t = some (-(tol + (t - c))))

/-- Proved part of C49, with truth read just after each time.  Missing: pieces that start at zero
and rise (`C49_false`), several samples at one time, and the end time. -/
theorem C49_partial {y : Signal} (h : Proper y) (hs : StrictTimes y) (h0 : NoRiseFromZero y) :
    ∃ z, computeLeftTimeRob y = .ok z ∧ z.beginTime = y.beginTime ∧ z.endTime = y.endTime ∧
      ∀ t, y.beginTime ≤ t → t < y.endTime →
        ∃ c, SinceChange (PositiveAfter y) y.beginTime c t ∧
          (PositiveAfter y t → value z t = some (tol + (t - c))) ∧
          (¬ PositiveAfter y t → value z t = some (-(tol + (t - c)))) := by
  obtain ⟨z, h1, h2, h3, hv⟩ := leftTimeRob_spec h.wf hs h0
  refine ⟨z, h1, h2, h3, fun t ht1 ht2 => ?_⟩
  obtain ⟨c, c1, c2, c3, c4, c5, c6⟩ := hv t ht1 ht2
  have e : ∀ s, y.beginTime ≤ s → (Holds y s ↔ PositiveAfter y s) :=
    fun s hs => holds_iff_positiveAfter h hs
  refine ⟨c, ⟨c1, c2, ?_, ?_⟩, ?_, ?_⟩
  · intro s hs1 hs2
    rw [← e s (c1.trans hs1), ← e t ht1]
    exact c5 s hs1 hs2
  · refine c6.imp id ?_
    rintro ⟨e', h1, h2, h3⟩
    refine ⟨e', h1, h2, fun s hs1 hs2 => ?_⟩
    rw [← e s (h1.trans hs1), ← e t ht1]
    exact h3 s hs1 hs2
  · rw [← e t ht1, Spec.value_eq]; exact c3
  · rw [← e t ht1, Spec.value_eq]; exact c4

example : ∃ z, computeLeftTimeRob hillSig = .ok z ∧ z.beginTime = hillSig.beginTime ∧
    z.endTime = hillSig.endTime ∧ ∀ t, hillSig.beginTime ≤ t → t < hillSig.endTime →
      ∃ c, SinceChange (PositiveAfter hillSig) hillSig.beginTime c t ∧
        (PositiveAfter hillSig t → value z t = some (tol + (t - c))) ∧
        (¬ PositiveAfter hillSig t → value z t = some (-(tol + (t - c)))) :=
  C49_partial hillSig_proper (by unfold StrictTimes; decide +kernel) hillSig_noRise

example : (computeLeftTimeRob hillSig).map (fun z => value z 3) = .ok (some (-(tol + 2))) := by
  decide +kernel

/-- C49 fails: the rising trace is true at time 1, its left time robustness is negative. -/
theorem C49_false : ¬ C49_full := by
  intro h
  obtain ⟨z, h1, h2⟩ := h rampSig rampSig_proper
  obtain ⟨c, hc, hp, _⟩ := h2 1 (by decide +kernel) (by decide +kernel)
  have e : computeLeftTimeRob rampSig = .ok ⟨[⟨0, -tol, -1⟩], 0, 2⟩ := by decide +kernel
  rw [e] at h1
  cases h1
  have := hp ⟨1, by decide +kernel, by norm_num⟩
  have e2 : value ⟨[⟨0, -tol, -1⟩], 0, 2⟩ 1 = some (-tol - 1) := by decide +kernel
  rw [e2] at this
  injection this with this
  have hct := hc.le
  have htol : (0 : ℚ) < tol := by decide +kernel
  linarith

/-! ## C50 -/

/-- Truth of `y` is the same from `t` up to `c`, and changes at `c` or `c` is the end. -/
def UntilChange (T : ℚ → Prop) (t c e : ℚ) : Prop :=
  t ≤ c ∧ c ≤ e ∧ (∀ s, t ≤ s → s < c → (T s ↔ T t)) ∧ (c = e ∨ (T c ↔ ¬ T t))

/-- C50: `compute_right_time_rob` returns, and its magnitude is the time to the next change. -/
def C50_full : Prop := ∀ y : Signal, Proper y → ∃ z, computeRightTimeRob y = .ok z ∧
  ∀ t, y.beginTime ≤ t → t < y.endTime → ∃ c, UntilChange (PositiveAfter y) t c y.endTime ∧
    (PositiveAfter y t → value z t = some (c - t)) ∧
    (¬ PositiveAfter y t → value z t = some (t - c))

/-- `compute_right_time_rob` is undefined on every signal of positive length: it compares
iterators of two containers (src/robustness.cpp:94). -/
theorem C50_undefined {y : Signal} (h : Proper y) (hb : y.beginTime < y.endTime) :
    computeRightTimeRob y = .error .ub := by
  obtain ⟨b, p, r, h1, -, -, h4, -, h6⟩ := computeBoolean_spec h.wf
  rw [computeRightTimeRob, h1]
  simp only [bind, Except.bind]
  cases hx : b.samples with
  | cons _ _ => rfl
  | nil =>
    exfalso
    have := h6 (pl y.beginTime) (by simpa using hb)
    rw [hx] at this
    have hp : p.time = y.beginTime := (boolList_wf h.wf).head p (by simp [h4])
    rw [val, val, cur, cur, hp] at this
    cases hc : cur r (pl y.beginTime) <;> simp [hc] at this

example : computeRightTimeRob hillSig = .error .ub :=
  C50_undefined hillSig_proper (by decide +kernel)

/-- The only proper signals on which it returns last an instant; the result is empty. -/
theorem C50_partial {y : Signal} (h : Proper y) (hb : y.beginTime = y.endTime) :
    computeRightTimeRob y = .ok ⟨[], y.beginTime, y.endTime⟩ := by
  obtain ⟨p, l, hx, hp⟩ := h.wf.exists_cons
  have hl : l = [] := by
    cases l with
    | nil => rfl
    | cons q r =>
      have h1 := h.strict q (by simp [hx])
      have h2 := h.le_end q (by simp [hx])
      linarith
  subst hl
  have hb' : computeBoolean y = .ok ⟨[], y.beginTime, y.endTime⟩ := by
    have hc : ¬ crosses p y.endTime := fun hc => by
      have := zeroOf_gt hc
      have := hc.2
      linarith
    rw [computeBoolean, booleanLoop_eq, hx]
    simp [boolList, boolPiece, nextTime, hc, bind, Except.bind, simplify, simplifyLoop, hp, hb]
  rw [computeRightTimeRob, hb']
  rfl

example : computeRightTimeRob ⟨[⟨1, 3, 0⟩], 1, 1⟩ = .ok ⟨[], 1, 1⟩ :=
  C50_partial (y := ⟨[⟨1, 3, 0⟩], 1, 1⟩)
    { ne := by decide
      head := by decide +kernel
      sorted := by decide +kernel
      le_end := by decide +kernel
      strict := by decide +kernel } rfl

/-- C50 fails on every signal of positive length. -/
theorem C50_false : ¬ C50_full := by
  intro h
  obtain ⟨z, h1, _⟩ := h hillSig hillSig_proper
  rw [C50_undefined hillSig_proper (by decide +kernel)] at h1
  cases h1

end Props
end STLRom
