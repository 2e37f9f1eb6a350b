import Verif.Spec.Pointwise
import Verif.Proofs.Bridge

/-!
# Properties C03–C07: the pointwise operators
-/

namespace STLRom
namespace Props
open Signal Spec

/-! ## C03 compute_not is pointwise negation -/

theorem C03_not (y : Signal) :
    (computeNot y).beginTime = y.beginTime ∧ (computeNot y).endTime = y.endTime ∧
    (∀ t, value (computeNot y) t = (value y t).map Neg.neg) ∧
    (∀ t, leftValue (computeNot y) t = (leftValue y t).map Neg.neg) ∧
    computeNot (computeNot y) = y := by
  refine ⟨rfl, rfl, fun t => ?_, fun t => ?_, computeNot_computeNot y⟩
  · rw [value_eq, value_eq, computeNot_samples, val_negs]
  · rw [leftValue_eq, leftValue_eq, computeNot_samples, val_negs]

example : value (computeNot ⟨[⟨0, 1, 2⟩, ⟨3, 4, 0⟩], 0, 5⟩) 2 = some (-5) := by
  rw [(C03_not _).2.2.1]; decide +kernel

/-! ## C04, C05, C06: and, or, implies -/

theorem combines_of_isOn {x y z : Signal} {op : ℚ → ℚ → ℚ} (hx : WF0 x) (hy : WF0 y)
    (h : IsOn z (max x.beginTime y.beginTime) (min x.endTime y.endTime)
      (fun τ => op (x.v τ) (y.v τ))) : Combines op x y z := by
  have hb1 : x.beginTime ≤ z.beginTime := by rw [h.begin_eq]; exact le_max_left _ _
  have hb2 : y.beginTime ≤ z.beginTime := by rw [h.begin_eq]; exact le_max_right _ _
  refine ⟨h.begin_eq, h.end_eq, h.wf.proper, ?_, ?_, ?_⟩
  · intro t h1 h2
    refine ⟨_, _, hx.value (hb1.trans h1), hy.value (hb2.trans h1), ?_⟩
    rw [h.wf.value h1, h.val]
    · rw [pl_le_pl, ← h.begin_eq]; exact h1
    · rw [pl_le_mi, ← h.end_eq]; exact h2
  · intro t h1 h2
    refine ⟨_, _, hx.leftValue (hb1.trans_lt h1), hy.leftValue (hb2.trans_lt h1), ?_⟩
    rw [h.wf.leftValue h1, h.val]
    · rw [pl_le_mi, ← h.begin_eq]; exact h1
    · rw [mi_le_mi, ← h.end_eq]; exact h2
  · intro hlt
    have := h.last (by rw [← h.begin_eq, ← h.end_eq]; exact hlt)
    rw [ContinuousAt, h.wf.value hlt.le, h.wf.leftValue hlt, h.end_eq, this]

/-- At the closing time the combination is right as soon as the operands do not jump there. -/
theorem _root_.STLRom.Spec.Combines.all {op : ℚ → ℚ → ℚ} {x y z : Signal} (h : Combines op x y z)
    (hlt : z.beginTime < z.endTime)
    (hx : ContinuousAt x z.endTime) (hy : ContinuousAt y z.endTime) : CombinesAll op x y z := by
  refine ⟨h.begin_eq, h.end_eq, fun t h1 h2 => ?_⟩
  rcases lt_or_eq_of_le h2 with h2 | rfl
  · exact h.value t h1 h2
  · obtain ⟨u, v, hu, hv, huv⟩ := h.left _ hlt le_rfl
    exact ⟨u, v, hx.trans hu, hy.trans hv, (h.closing hlt).trans huv⟩

/-- C04, for every pair of signals whose domains overlap in more than a point: no fault, and
pointwise minimum.  Missing from the full claim: a jump exactly at the closing time
(see `C04_false`). -/
theorem C04_and_partial {x y : Signal} (hx : Ordered x) (hy : Ordered y)
    (hlt : max x.beginTime y.beginTime < min x.endTime y.endTime) :
    ∃ z, computeAndM x y = .ok z ∧ Combines min x y z := by
  obtain ⟨z, h1, h2⟩ := computeAndM_spec_lt hx.wf0 hy.wf0 hlt
  exact ⟨z, h1, combines_of_isOn hx.wf0 hy.wf0 h2⟩

/-- C04 in full when neither operand jumps at the closing time. -/
theorem C04_and_all_partial {x y : Signal} (hx : Ordered x) (hy : Ordered y)
    (hlt : max x.beginTime y.beginTime < min x.endTime y.endTime)
    (cx : ContinuousAt x (min x.endTime y.endTime))
    (cy : ContinuousAt y (min x.endTime y.endTime)) :
    ∃ z, computeAndM x y = .ok z ∧ CombinesAll min x y z := by
  obtain ⟨z, h1, h2⟩ := C04_and_partial hx hy hlt
  refine ⟨z, h1, h2.all ?_ ?_ ?_⟩
  · rwa [h2.begin_eq, h2.end_eq]
  · rwa [h2.end_eq]
  · rwa [h2.end_eq]

/-- C04 when the common domain is one point. -/
theorem C04_and_point_partial {x y : Signal} (hx : Proper x) (hy : Proper y)
    (hb : x.beginTime = y.beginTime) (he : min x.endTime y.endTime = x.beginTime) :
    ∃ z, computeAndM x y = .ok z ∧ CombinesAll min x y z := by
  obtain ⟨z, h1, h2⟩ := computeAndM_spec_eq hx.wf hy.wf hb he
  refine ⟨z, h1, by rw [h2.begin_eq, ← hb, max_self], by rw [h2.end_eq, he], fun t h3 h4 => ?_⟩
  rw [h2.begin_eq] at h3
  rw [h2.end_eq] at h4
  obtain rfl := le_antisymm h4 h3
  refine ⟨_, _, hx.wf.value le_rfl, hy.wf.value hb.ge, ?_⟩
  rw [h2.wf.value h2.begin_eq.le, h2.point rfl]

/-- The free function `computeAnd` used inside the timed operators, same claim. -/
theorem C04_and_function_partial {x y : Signal} (hx : Ordered x) (hy : Ordered y)
    (hlt : max x.beginTime y.beginTime < min x.endTime y.endTime) :
    ∃ z, computeAnd x y = .ok z ∧ Combines min x y z := by
  obtain ⟨z, h1, h2⟩ := computeAnd_spec hx.wf0 hy.wf0 hlt
  exact ⟨z, h1, combines_of_isOn hx.wf0 hy.wf0 h2⟩

/-- Two step signals on `[0,2]`; the first jumps from 5 to 1 exactly at its end. -/
def stepX : Signal := ⟨[⟨0, 5, 0⟩, ⟨2, 1, 0⟩], 0, 2⟩
def flatY : Signal := ⟨[⟨0, 3, 0⟩, ⟨2, 3, 0⟩], 0, 2⟩
/-- Two signals that cross between samples. -/
def riseX : Signal := ⟨[⟨0, 0, 2⟩, ⟨2, 4, 0⟩], 0, 2⟩

theorem stepX_proper : Proper stepX :=
  ⟨⟨by decide +kernel, by simp [stepX], by decide +kernel, by decide +kernel⟩, by decide +kernel⟩
theorem flatY_proper : Proper flatY :=
  ⟨⟨by decide +kernel, by simp [flatY], by decide +kernel, by decide +kernel⟩, by decide +kernel⟩
theorem riseX_proper : Proper riseX :=
  ⟨⟨by decide +kernel, by simp [riseX], by decide +kernel, by decide +kernel⟩, by decide +kernel⟩

/-- The full C04 is false of the code: with a jump exactly at the closing time the result there
is the limit from the left, 3, while the minimum of the two values is 1. -/
theorem C04_false : ¬ ∀ x y, Proper x → Proper y →
    max x.beginTime y.beginTime < min x.endTime y.endTime →
    ∃ z, computeAndM x y = .ok z ∧ CombinesAll min x y z := by
  intro h
  obtain ⟨z, h1, h2⟩ := h stepX flatY stepX_proper flatY_proper (by decide +kernel)
  have hz : computeAndM stepX flatY = .ok ⟨[⟨0, 3, 0⟩, ⟨2, 3, 0⟩], 0, 2⟩ := by decide +kernel
  rw [hz] at h1
  obtain rfl := Except.ok.inj h1
  obtain ⟨u, v, hu, hv, huv⟩ := h2.2.2 2 (by decide +kernel) (by decide +kernel)
  have e1 : value stepX 2 = some 1 := by decide +kernel
  have e2 : value flatY 2 = some 3 := by decide +kernel
  have e3 : value ⟨[⟨0, 3, 0⟩, ⟨2, 3, 0⟩], 0, 2⟩ 2 = some 3 := by decide +kernel
  rw [e1] at hu; rw [e2] at hv; rw [e3] at huv
  obtain rfl := Option.some.inj hu
  obtain rfl := Option.some.inj hv
  simp at huv

example : ∃ z, computeAndM riseX flatY = .ok z ∧ CombinesAll min riseX flatY z :=
  C04_and_all_partial riseX_proper.toOrdered flatY_proper.toOrdered (by decide +kernel)
    (by decide +kernel) (by decide +kernel)
example : ∃ z, computeAnd riseX stepX = .ok z ∧ Combines min riseX stepX z :=
  C04_and_function_partial riseX_proper.toOrdered stepX_proper.toOrdered (by decide +kernel)
example : ∃ z, computeAndM riseX (Signal.single 0 7) = .ok z ∧
    CombinesAll min riseX (Signal.single 0 7) z :=
  C04_and_point_partial riseX_proper
    ⟨⟨by decide +kernel, by simp [Signal.single], by decide +kernel, by decide +kernel⟩,
      by decide +kernel⟩ (by decide +kernel) (by decide +kernel)

/-- C05, as C04 with the maximum. -/
theorem C05_or_partial {x y : Signal} (hx : Ordered x) (hy : Ordered y)
    (hlt : max x.beginTime y.beginTime < min x.endTime y.endTime) :
    ∃ z, computeOrM x y = .ok z ∧ Combines max x y z := by
  obtain ⟨z, h1, h2⟩ := computeOrM_spec_lt hx.wf0 hy.wf0 hlt
  exact ⟨z, h1, combines_of_isOn hx.wf0 hy.wf0 h2⟩

theorem C05_or_all_partial {x y : Signal} (hx : Ordered x) (hy : Ordered y)
    (hlt : max x.beginTime y.beginTime < min x.endTime y.endTime)
    (cx : ContinuousAt x (min x.endTime y.endTime))
    (cy : ContinuousAt y (min x.endTime y.endTime)) :
    ∃ z, computeOrM x y = .ok z ∧ CombinesAll max x y z := by
  obtain ⟨z, h1, h2⟩ := C05_or_partial hx hy hlt
  refine ⟨z, h1, h2.all ?_ ?_ ?_⟩
  · rwa [h2.begin_eq, h2.end_eq]
  · rwa [h2.end_eq]
  · rwa [h2.end_eq]

theorem C05_or_point_partial {x y : Signal} (hx : Proper x) (hy : Proper y)
    (hb : x.beginTime = y.beginTime) (he : min x.endTime y.endTime = x.beginTime) :
    ∃ z, computeOrM x y = .ok z ∧ CombinesAll max x y z := by
  obtain ⟨z, h1, h2⟩ := computeOrM_spec_eq hx.wf hy.wf hb he
  refine ⟨z, h1, by rw [h2.begin_eq, ← hb, max_self], by rw [h2.end_eq, he], fun t h3 h4 => ?_⟩
  rw [h2.begin_eq] at h3
  rw [h2.end_eq] at h4
  obtain rfl := le_antisymm h4 h3
  refine ⟨_, _, hx.wf.value le_rfl, hy.wf.value hb.ge, ?_⟩
  rw [h2.wf.value h2.begin_eq.le, h2.point rfl]

theorem C05_or_function_partial {x y : Signal} (hx : Ordered x) (hy : Ordered y)
    (hlt : max x.beginTime y.beginTime < min x.endTime y.endTime) :
    ∃ z, computeOr x y = .ok z ∧ Combines max x y z := by
  obtain ⟨z, h1, h2⟩ := computeOr_spec hx.wf0 hy.wf0 hlt
  exact ⟨z, h1, combines_of_isOn hx.wf0 hy.wf0 h2⟩

/-- As `C04_false`: `max 3 1` at the closing time, where the code gives 5. -/
theorem C05_false : ¬ ∀ x y, Proper x → Proper y →
    max x.beginTime y.beginTime < min x.endTime y.endTime →
    ∃ z, computeOrM x y = .ok z ∧ CombinesAll max x y z := by
  intro h
  obtain ⟨z, h1, h2⟩ := h stepX flatY stepX_proper flatY_proper (by decide +kernel)
  have hz : computeOrM stepX flatY = .ok ⟨[⟨0, 5, 0⟩, ⟨2, 5, 0⟩], 0, 2⟩ := by decide +kernel
  rw [hz] at h1
  obtain rfl := Except.ok.inj h1
  obtain ⟨u, v, hu, hv, huv⟩ := h2.2.2 2 (by decide +kernel) (by decide +kernel)
  have e1 : value stepX 2 = some 1 := by decide +kernel
  have e2 : value flatY 2 = some 3 := by decide +kernel
  have e3 : value ⟨[⟨0, 5, 0⟩, ⟨2, 5, 0⟩], 0, 2⟩ 2 = some 5 := by decide +kernel
  rw [e1] at hu; rw [e2] at hv; rw [e3] at huv
  obtain rfl := Option.some.inj hu
  obtain rfl := Option.some.inj hv
  simp at huv

example : ∃ z, computeOrM riseX flatY = .ok z ∧ CombinesAll max riseX flatY z :=
  C05_or_all_partial riseX_proper.toOrdered flatY_proper.toOrdered (by decide +kernel)
    (by decide +kernel) (by decide +kernel)

/-- C06: implication is the maximum of the negated left operand and the right operand. -/
theorem C06_implies_partial {x y : Signal} (hx : Ordered x) (hy : Ordered y)
    (hlt : max x.beginTime y.beginTime < min x.endTime y.endTime) :
    ∃ z, computeImpliesM x y = .ok z ∧ Combines (fun u v => max (-u) v) x y z := by
  obtain ⟨z, h1, h2⟩ := computeOrM_spec_lt hx.wf0.not hy.wf0 hlt
  refine ⟨z, h1, combines_of_isOn (op := fun u v => max (-u) v) hx.wf0 hy.wf0 ?_⟩
  exact h2.congr fun τ => by rw [v_not]

theorem C06_implies_all_partial {x y : Signal} (hx : Ordered x) (hy : Ordered y)
    (hlt : max x.beginTime y.beginTime < min x.endTime y.endTime)
    (cx : ContinuousAt x (min x.endTime y.endTime))
    (cy : ContinuousAt y (min x.endTime y.endTime)) :
    ∃ z, computeImpliesM x y = .ok z ∧ CombinesAll (fun u v => max (-u) v) x y z := by
  obtain ⟨z, h1, h2⟩ := C06_implies_partial hx hy hlt
  refine ⟨z, h1, h2.all ?_ ?_ ?_⟩
  · rwa [h2.begin_eq, h2.end_eq]
  · rwa [h2.end_eq]
  · rwa [h2.end_eq]

theorem C06_implies_point_partial {x y : Signal} (hx : Proper x) (hy : Proper y)
    (hb : x.beginTime = y.beginTime) (he : min x.endTime y.endTime = x.beginTime) :
    ∃ z, computeImpliesM x y = .ok z ∧ CombinesAll (fun u v => max (-u) v) x y z := by
  obtain ⟨z, h1, h2⟩ := computeOrM_spec_eq hx.wf.not hy.wf hb he
  have hbx : (computeNot x).beginTime = x.beginTime := rfl
  rw [hbx] at h2
  refine ⟨z, h1, by rw [h2.begin_eq, ← hb, max_self], by rw [h2.end_eq, he], fun t h3 h4 => ?_⟩
  rw [h2.begin_eq] at h3
  rw [h2.end_eq] at h4
  obtain rfl := le_antisymm h4 h3
  refine ⟨_, _, hx.wf.value le_rfl, hy.wf.value hb.ge, ?_⟩
  rw [h2.wf.value h2.begin_eq.le, h2.point rfl, v_not]

/-- As `C05_false`: at the closing time `max (-1) (-3)` is `-1`, the code gives `-3`. -/
theorem C06_false : ¬ ∀ x y, Proper x → Proper y →
    max x.beginTime y.beginTime < min x.endTime y.endTime →
    ∃ z, computeImpliesM x y = .ok z ∧ CombinesAll (fun u v => max (-u) v) x y z := by
  intro h
  have hp : Proper (computeNot flatY) := flatY_proper.wf.not.proper
  obtain ⟨z, h1, h2⟩ := h stepX (computeNot flatY) stepX_proper hp (by decide +kernel)
  have hz : computeImpliesM stepX (computeNot flatY) = .ok ⟨[⟨0, -3, 0⟩, ⟨2, -3, 0⟩], 0, 2⟩ := by
    decide +kernel
  rw [hz] at h1
  obtain rfl := Except.ok.inj h1
  obtain ⟨u, v, hu, hv, huv⟩ := h2.2.2 2 (by decide +kernel) (by decide +kernel)
  have e1 : value stepX 2 = some 1 := by decide +kernel
  have e2 : value (computeNot flatY) 2 = some (-3) := by decide +kernel
  have e3 : value ⟨[⟨0, -3, 0⟩, ⟨2, -3, 0⟩], 0, 2⟩ 2 = some (-3) := by decide +kernel
  rw [e1] at hu; rw [e2] at hv; rw [e3] at huv
  obtain rfl := Option.some.inj hu
  obtain rfl := Option.some.inj hv
  simp at huv

example : ∃ z, computeImpliesM riseX flatY = .ok z ∧
    CombinesAll (fun u v => max (-u) v) riseX flatY z :=
  C06_implies_all_partial riseX_proper.toOrdered flatY_proper.toOrdered (by decide +kernel)
    (by decide +kernel) (by decide +kernel)

/-! ## C07 De Morgan between the two copies -/

/-- C07: for every pair of signals whatsoever, and for both variants of the routines, the two
copies fail together and otherwise build the same samples up to sign. -/
theorem C07_de_morgan (x y : Signal) :
    computeAndM x y = (computeOrM (computeNot x) (computeNot y)).map computeNot ∧
    computeAnd x y = (computeOr (computeNot x) (computeNot y)).map computeNot := by
  refine ⟨?_, ?_⟩
  · rw [← computeAndM_not, computeNot_computeNot, computeNot_computeNot]
  · rw [← computeAnd_not, computeNot_computeNot, computeNot_computeNot]

example : computeAndM riseX flatY = .ok ⟨[⟨0, 0, 2⟩, ⟨3/2, 3, 0⟩, ⟨2, 3, 0⟩], 0, 2⟩ := by
  decide +kernel

end Props
end STLRom
