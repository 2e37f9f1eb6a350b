import Verif.Proofs.Until
import Verif.Props.Temporal

/-!
# Properties C15 and C16: `until` on signals
-/

namespace STLRom
namespace Props
open Signal Spec

/-! ## C15 untimed until -/

/-- C15 in full, on the signals the temporal operators are meant for. -/
def C15_full : Prop := ∀ (x y : Signal) (B : ℚ), Regular x → StrictTimes x → Regular y →
  StrictTimes y → Bounded B x → Bounded B y →
  max x.beginTime y.beginTime < min x.endTime y.endTime →
  ∃ z, computeUntilM B Signal.empty x y = .ok z ∧
    ∀ t, max x.beginTime y.beginTime ≤ t → t ≤ min x.endTime y.endTime →
      UntilAt z t x y t (min x.endTime y.endTime)

/-- C15: the library function, and the method on a fresh target.  Missing from the full claim:
operands that fail `RisesClear` (see `C15_false`), a right operand that jumps exactly at the
common end (see `C15_closing_false`), and operands with several samples at one time. -/
theorem C15_until_partial (x y : Signal) (B : ℚ) (hx : Proper x) (ix : StrictTimes x)
    (hy : Proper y) (iy : StrictTimes y) (hBx : Bounded B x) (hBy : Bounded B y)
    (hlt : max x.beginTime y.beginTime < min x.endTime y.endTime)
    (hL : RisesClear x y) (hc : ContinuousAt y (min x.endTime y.endTime)) :
    ∃ z, computeUntil B x y = .ok z ∧ computeUntilM B Signal.empty x y = .ok z ∧
      z.beginTime = max x.beginTime y.beginTime ∧ z.endTime = min x.endTime y.endTime ∧ Proper z ∧
      ∀ t, z.beginTime ≤ t → t ≤ z.endTime →
        (t < z.endTime ∨ ContinuousAt x (min x.endTime y.endTime)) →
        UntilAt z t x y t (min x.endTime y.endTime) := by
  obtain ⟨z, h1, h2, h3, h4, h5, h6, h7⟩ := computeUntil_spec (B := B) hx.wf.toWF0 hy.wf.toWF0 ix iy
    hlt (fun σ c d => (hBx.lower hx.wf.toWF0 σ c d).1) (fun σ c d => (hBy.lower hy.wf.toWF0 σ c d).1)
    hL
  set b := max x.beginTime y.beginTime with hb
  set e := min x.endTime y.endTime with he
  have hbx : x.beginTime ≤ b := le_max_left _ _
  have hby : y.beginTime ≤ b := le_max_right _ _
  rw [ContinuousAt, hy.wf.value (hby.trans hlt.le), hy.wf.leftValue (hby.trans_lt hlt)] at hc
  have hcy := Option.some.inj hc
  refine ⟨z, h1, h2, h3, h4, h5.proper, fun t c d hor => ⟨_, h5.value c, ?_⟩⟩
  rw [h3] at c
  rw [h4] at d hor
  rcases d.lt_or_eq with d' | d'
  · refine Wnt.isLUB hx.wf.toWF0 hy.wf.toWF0 (H := mi e) (hbx.trans c) (hby.trans c)
      (Or.inr ⟨rfl, d', hcy.le⟩) ?_
    exact h6 (pl t) (by simpa using c) (by simpa using d')
  · have hcx : x.v (pl e) = x.v (mi e) := by
      rcases hor with h | h
      · exact absurd d' h.ne
      · rw [ContinuousAt, hx.wf.value (hbx.trans hlt.le), hx.wf.leftValue (hbx.trans_lt hlt)] at h
        exact Option.some.inj h
    subst d'
    have hm := (h6 (mi e) (by simpa using hlt) le_rfl).point
    rw [h7, hm, ← hcx, ← hcy]
    refine Wnt.isLUB hx.wf.toWF0 hy.wf.toWF0 (H := pl e) (hbx.trans c) (hby.trans c) (Or.inl rfl) ?_
    refine ⟨⟨pl e, le_rfl, le_rfl, min_le_right _ _, fun ρ p q => ?_⟩, fun σ w p q r s => ?_⟩
    · rw [le_antisymm q p]; exact min_le_left _ _
    · rw [le_antisymm q p] at r s
      exact le_min (s _ le_rfl le_rfl) r

/-- Down from 3 to 1 on `[0,2]`, up to 2 on `[2,4]`. -/
def dip : Signal := ⟨[⟨0, 3, -1⟩, ⟨2, 1, 1/2⟩, ⟨4, 2, 0⟩], 0, 4⟩

theorem dip_regular : Regular dip :=
  ⟨⟨⟨by decide +kernel, by simp [dip], by decide +kernel, by decide +kernel⟩,
    by decide +kernel⟩, Or.inl (by unfold StrictTimes; decide +kernel)⟩

theorem dip_bounded : Bounded 10000 dip := by
  refine ⟨fun t v h0 h1 h => ?_, fun t v h0 h1 h => ?_⟩
  · simp only [dip] at h0 h1
    by_cases h2 : 2 ≤ t
    · by_cases h3 : 4 ≤ t
      · simp [value, dip, List.filter, h0, h2, h3] at h
        constructor <;> linarith
      · simp [value, dip, List.filter, h0, h2, h3] at h
        constructor <;> linarith
    · have h3 : ¬ 4 ≤ t := by linarith
      simp [value, dip, List.filter, h0, h2, h3] at h
      constructor <;> linarith
  · simp only [dip] at h0 h1
    by_cases h2 : 2 < t
    · simp [leftValue, dip, List.filter, h0, h2, not_lt.2 h1] at h
      constructor <;> linarith
    · simp [leftValue, dip, List.filter, h0, h2, not_lt.2 h1] at h
      constructor <;> linarith

example : ∃ z, computeUntilM 10000 Signal.empty tent dip = .ok z ∧
    ∀ t, 0 ≤ t → t ≤ 4 → UntilAt z t tent dip t 4 := by
  obtain ⟨z, _, h, h1, h2, _, h'⟩ := C15_until_partial tent dip 10000 tent_regular.toProper
    (by unfold StrictTimes; decide +kernel) dip_regular.toProper
    (by unfold StrictTimes; decide +kernel) tent_bounded dip_bounded (by decide +kernel)
    (by unfold RisesClear; decide +kernel) (by decide +kernel)
  have e : min tent.endTime dip.endTime = 4 := by decide +kernel
  have b : max tent.beginTime dip.beginTime = 0 := by decide +kernel
  rw [e] at h' h2
  rw [h1, h2, b] at h'
  exact ⟨z, h, fun t c d => h' t c d (Or.inr (by decide +kernel))⟩

/-- The result there. -/
example : computeUntilM 10000 Signal.empty tent dip =
    .ok ⟨[⟨0, 0, 2⟩, ⟨1, 2, -1⟩, ⟨7/5, 8/5, 0⟩, ⟨16/5, 8/5, -2⟩, ⟨4, 0, 0⟩], 0, 4⟩ := by
  decide +kernel

/-- Constant at 20 until time 5, then up from 15. -/
def lateRise : Signal := ⟨[⟨0, 20, 0⟩, ⟨5, 15, 1⟩], 0, 10⟩

/-- Down from 10 to 4 on `[0,6]`, then slowly up. -/
def longFall : Signal := ⟨[⟨0, 10, -1⟩, ⟨6, 4, 1/10⟩], 0, 10⟩

/-- C15 in full is false: at time 8 the result is 2, while `y` is at least 4 from then on and
`x` far above. -/
theorem C15_false : ¬ C15_full := by
  intro h
  have rx : Regular lateRise := ⟨⟨⟨by decide +kernel, by simp [lateRise], by decide +kernel,
    by decide +kernel⟩, by decide +kernel⟩, Or.inl (by unfold StrictTimes; decide +kernel)⟩
  have ry : Regular longFall := ⟨⟨⟨by decide +kernel, by simp [longFall], by decide +kernel,
    by decide +kernel⟩, by decide +kernel⟩, Or.inl (by unfold StrictTimes; decide +kernel)⟩
  have bx : Bounded 10000 lateRise := by
    refine ⟨fun t v h0 h1 h => ?_, fun t v h0 h1 h => ?_⟩
    · simp only [lateRise] at h0 h1
      by_cases h2 : 5 ≤ t <;> simp [value, lateRise, List.filter, h0, h2] at h <;>
        constructor <;> linarith
    · simp only [lateRise] at h0 h1
      by_cases h2 : 5 < t <;> simp [leftValue, lateRise, List.filter, h0, h2] at h <;>
        constructor <;> linarith
  have by' : Bounded 10000 longFall := by
    refine ⟨fun t v h0 h1 h => ?_, fun t v h0 h1 h => ?_⟩
    · simp only [longFall] at h0 h1
      by_cases h2 : 6 ≤ t <;> simp [value, longFall, List.filter, h0, h2] at h <;>
        constructor <;> linarith
    · simp only [longFall] at h0 h1
      by_cases h2 : 6 < t <;> simp [leftValue, longFall, List.filter, h0, h2] at h <;>
        constructor <;> linarith
  obtain ⟨z, h1, h2⟩ := h lateRise longFall 10000 rx (by unfold StrictTimes; decide +kernel) ry
    (by unfold StrictTimes; decide +kernel) bx by' (by decide +kernel)
  have e : computeUntilM 10000 Signal.empty lateRise longFall =
      .ok ⟨[⟨0, 10, -1⟩, ⟨53/5, 22/5, 0⟩], 0, 10⟩ := by decide +kernel
  rw [e] at h1
  obtain rfl := Except.ok.inj h1
  obtain ⟨v, h3, h4⟩ := h2 8 (by decide +kernel) (by decide +kernel)
  have e : value ⟨[⟨0, 10, -1⟩, ⟨53/5, 22/5, 0⟩], 0, 10⟩ 8 = some 2 := by decide +kernel
  rw [e] at h3
  obtain rfl := Option.some.inj h3
  have : (4 : ℚ) ≤ 2 := h4.1 ⟨8, le_rfl, by decide +kernel, ⟨21/5, by decide +kernel, by norm_num⟩, by
    intro q hq hq' c hc
    obtain rfl := le_antisymm hq' hq
    have e : value lateRise 8 = some 18 := by decide +kernel
    rw [e] at hc
    obtain rfl := Option.some.inj hc
    norm_num⟩
  norm_num at this

/-- A right operand that jumps from 0 to 3 exactly at the end: the value at the end is never
looked at, and the result is 0 where it should be 3. -/
theorem C15_closing_false : ∃ x y z : Signal, Regular x ∧ Regular y ∧ Bounded 10000 x ∧
    Bounded 10000 y ∧ RisesClear x y ∧ computeUntilM 10000 Signal.empty x y = .ok z ∧
    ¬ UntilAt z 0 x y 0 (min x.endTime y.endTime) := by
  refine ⟨⟨[⟨0, 5, 0⟩], 0, 2⟩, ⟨[⟨0, 0, 0⟩, ⟨2, 3, 0⟩], 0, 2⟩, ⟨[⟨0, 0, 0⟩, ⟨2, 0, 0⟩], 0, 2⟩,
    ⟨⟨⟨by decide +kernel, by simp, by decide +kernel, by decide +kernel⟩, by decide +kernel⟩,
      Or.inl (by unfold StrictTimes; decide +kernel)⟩,
    ⟨⟨⟨by decide +kernel, by simp, by decide +kernel, by decide +kernel⟩, by decide +kernel⟩,
      Or.inl (by unfold StrictTimes; decide +kernel)⟩,
    ⟨fun t v h0 h1 h => ?_, fun t v h0 h1 h => ?_⟩, ⟨fun t v h0 h1 h => ?_, fun t v h0 h1 h => ?_⟩,
    by unfold RisesClear; decide +kernel, by decide +kernel, ?_⟩
  · simp only at h0 h1
    simp [value, List.filter, h0] at h
    constructor <;> linarith
  · simp only at h0 h1
    simp [leftValue, List.filter, h0] at h
    constructor <;> linarith
  · simp only at h0 h1
    by_cases h2 : 2 ≤ t <;> simp [value, List.filter, h0, h2] at h <;> constructor <;> linarith
  · simp only at h0 h1
    simp [leftValue, List.filter, h0, not_lt.2 h1] at h
    constructor <;> linarith
  · rintro ⟨v, h3, h4⟩
    have e : value ⟨[⟨0, 0, 0⟩, ⟨2, 0, 0⟩], 0, 2⟩ 0 = some 0 := by decide +kernel
    rw [e] at h3
    obtain rfl := Option.some.inj h3
    have : (3 : ℚ) ≤ 0 := h4.1 ⟨2, by norm_num, by decide +kernel, ⟨3, by decide +kernel, le_rfl⟩, by
      intro q hq hq' c hc
      simp [value, List.filter, hq] at hc
      linarith⟩
    norm_num at this

/-! ## C16 timed until -/

/-- C16 in full. -/
def C16_full : Prop := ∀ (old x y : Signal) (B a b : ℚ), Regular x → StrictTimes x → Regular y →
  StrictTimes y → Bounded B x → Bounded B y → 0 ≤ a → a < b →
  max x.beginTime y.beginTime + a < min x.endTime y.endTime →
  ∃ z, computeTimedUntil B old x y a b = .ok z ∧
    ∀ t, max x.beginTime y.beginTime ≤ t → t + a ≤ min x.endTime y.endTime →
      UntilAt z t x y (t + a) (min (t + b) (min x.endTime y.endTime))

/-- C16.  The window is cut at the common end of the operands.  Missing from the full claim: what
C15 misses; operands that begin before time 0; a window that does not fit in the right operand
although it ends before the common end time, or reaches past the end of the left one (see
`C16_false`); a sloped last sample that is cut away (`CutSafe`, see C12); the value at the last
time of the result. -/
theorem C16_timed_until_partial (old x y : Signal) (B a b : ℚ) (hx : Proper x) (ix : StrictTimes x)
    (hy : Proper y) (iy : StrictTimes y) (hBx : Bounded B x) (hBy : Bounded B y)
    (hlt : max x.beginTime y.beginTime < min x.endTime y.endTime)
    (hL : RisesClear x y) (hc : ContinuousAt y (min x.endTime y.endTime))
    (ha : 0 ≤ a) (hab : a < b) (hb0 : 0 ≤ x.beginTime)
    (hxa : x.beginTime + a < min x.endTime y.endTime)
    (hyb : b ≤ min x.endTime y.endTime → y.beginTime + (b - a) < y.endTime)
    (cx : CutSafe x a) (cy : CutSafe y (b - a)) :
    ∃ z, computeTimedUntil B old x y a b = .ok z ∧
      z.beginTime = max x.beginTime (max x.beginTime y.beginTime - a) ∧
      z.endTime = min x.endTime y.endTime - a ∧ Proper z ∧
      ∀ t, z.beginTime ≤ t → t < z.endTime →
        UntilAt z t x y (t + a) (min (t + b) (min x.endTime y.endTime)) := by
  obtain ⟨z, h1, h2, h3, h4, h5⟩ := computeTimedUntil_spec (old := old) (B := B) hx.wf.toWF0
    hy.wf.toWF0 ix iy hlt (hBx.lower hx.wf.toWF0) (fun σ c d => (hBy.lower hy.wf.toWF0 σ c d).1)
    hL ha hab hb0 hxa hyb (fun h => Or.inr (cx h (hxa.trans_le (min_le_left _ _))))
    (fun h => Or.inr (cy (by linarith) (hyb h)))
  set b0 := max x.beginTime y.beginTime with hb
  set e := min x.endTime y.endTime with he
  have hbx : x.beginTime ≤ b0 := le_max_left _ _
  have hby : y.beginTime ≤ b0 := le_max_right _ _
  rw [ContinuousAt, hy.wf.value (hby.trans hlt.le), hy.wf.leftValue (hby.trans_lt hlt)] at hc
  have hcy := Option.some.inj hc
  refine ⟨z, h1, h2, h3, h4.proper, fun t c d => ⟨_, h4.value c, ?_⟩⟩
  have hw := h5 t c d
  rw [h2] at c
  rw [h3] at d
  have c1 := le_trans (le_max_left _ _) c
  have c2 := le_trans (le_max_right _ _) c
  refine Wnt.isLUB hx.wf.toWF0 hy.wf.toWF0 c1 (by linarith) ?_ hw
  rcases lt_or_ge (t + b) e with h | h
  · left
    rw [min_eq_left h.le, min_eq_left (by simpa using h)]
  · right
    rw [min_eq_right h, min_eq_right (by simpa using h)]
    exact ⟨rfl, by linarith, hcy.le⟩

theorem dip_cut (len : ℚ) : CutSafe dip len := fun _ _ => Or.inr (by
  intro p hp
  simp only [dip, List.getLast?_cons_cons, List.getLast?_singleton, Option.some.injEq] at hp
  rw [← hp])

/-- All three ways through the code: the window fits; it reaches past the end; it starts at 0. -/
example : ∀ w ∈ ([(1, 2), (1, 9), (0, 2)] : List (ℚ × ℚ)), ∃ z,
    computeTimedUntil 10000 Signal.empty tent dip w.1 w.2 = .ok z ∧
    ∀ t, 0 ≤ t → t < 4 - w.1 → UntilAt z t tent dip (t + w.1) (min (t + w.2) 4) := by
  intro w hw
  have hw0 : 0 ≤ w.1 := by revert w; decide +kernel
  have e : min tent.endTime dip.endTime = 4 := by decide +kernel
  have b : max tent.beginTime dip.beginTime = 0 := by decide +kernel
  obtain ⟨z, h, h1, h2, _, h'⟩ := C16_timed_until_partial Signal.empty tent dip 10000 w.1 w.2
    tent_regular.toProper
    (by unfold StrictTimes; decide +kernel) dip_regular.toProper
    (by unfold StrictTimes; decide +kernel) tent_bounded dip_bounded (by decide +kernel)
    (by unfold RisesClear; decide +kernel) (by decide +kernel)
    (by revert w; decide +kernel) (by revert w; decide +kernel) (by decide +kernel)
    (by revert w; decide +kernel) (by revert w; decide +kernel) (tent_cut _) (dip_cut _)
  refine ⟨z, h, fun t c d => ?_⟩
  rw [e] at h' h2
  rw [b] at h1
  refine h' t ?_ (by rw [h2]; exact d)
  rw [h1]
  exact max_le c (by linarith)

/-- Two constant signals on `[5,10]`: the window `[0,8]` does not fit in them, but it ends before
time 10, and the code runs off the end of its list of samples. -/
theorem C16_false : ¬ C16_full := by
  intro h
  have hr : ∀ v : ℚ, Regular ⟨[⟨5, v, 0⟩], 5, 10⟩ := fun v =>
    ⟨⟨⟨by simp, by simp, by simp, by simp; norm_num⟩, by simp⟩,
      Or.inl (by simp [StrictTimes])⟩
  have hB : ∀ v : ℚ, -10000 ≤ v → v ≤ 10000 → Bounded 10000 ⟨[⟨5, v, 0⟩], 5, 10⟩ := by
    intro v a b
    refine ⟨fun t u h0 h1 h => ?_, fun t u h0 h1 h => ?_⟩
    · simp only at h0 h1
      simp [value, List.filter, h0] at h
      constructor <;> linarith
    · simp only at h0 h1
      simp [leftValue, List.filter, h0] at h
      constructor <;> linarith
  obtain ⟨z, h1, _⟩ := h Signal.empty ⟨[⟨5, 1, 0⟩], 5, 10⟩ ⟨[⟨5, 0, 0⟩], 5, 10⟩ 10000 0 8 (hr 1)
    (by simp [StrictTimes]) (hr 0) (by simp [StrictTimes]) (hB 1 (by norm_num) (by norm_num))
    (hB 0 (by norm_num) (by norm_num)) le_rfl (by norm_num) (by norm_num)
  have e : computeTimedUntil 10000 Signal.empty ⟨[⟨5, 1, 0⟩], 5, 10⟩ ⟨[⟨5, 0, 0⟩], 5, 10⟩ 0 8 =
      .error .ub := by decide +kernel
  rw [e] at h1
  cases h1

end Props
end STLRom
