import Verif.Spec.Alias
import Mathlib.Tactic.Tauto

/-!
# Property C86: the target of an operation may be one of its operands
-/

namespace STLRom
namespace Props
open Signal Spec

/-- The outcome in the target is the one in a new signal. -/
def C86_full : Prop := ∀ (B : ℚ) (σ : ℕ → Signal) (z w : ℕ) (op : SigOp), w ∉ operandsOf op → σ w = Signal.empty →
  (op.exec B σ z).map (· z) = (op.exec B σ w).map (· w)

theorem clear_self (σ : ℕ → Signal) (z : ℕ) : SigOp.clear σ z z = { σ z with samples := [] } :=
  Function.update_self ..

theorem clear_ne (σ : ℕ → Signal) {z x : ℕ} (h : z ≠ x) : SigOp.clear σ z x = σ x :=
  Function.update_of_ne (Ne.symm h) ..

theorem exec_map (B : ℚ) (σ : ℕ → Signal) (z : ℕ) (op : SigOp) : (op.exec B σ z).map (· z) = op.result B σ z := by
  unfold SigOp.exec
  cases op.result B σ z with
  | error e => rfl
  | ok r => exact congrArg Except.ok (Function.update_self ..)

/-- With separate targets the outcome depends on the operands only, when none of them is empty. -/
theorem result_apart (B : ℚ) (σ : ℕ → Signal) (z w : ℕ) (op : SigOp) (hz : z ∉ operandsOf op) (hw : w ∉ operandsOf op)
    (h : ∀ x ∈ operandsOf op, (σ x).samples ≠ []) : op.result B σ z = op.result B σ w := by
  cases op with
  | timedUntil x y a b =>
    simp only [operandsOf, List.mem_cons, List.not_mem_nil, or_false, forall_eq_or_imp, forall_eq] at h
    simp only [SigOp.result, computeTimedUntil, h.1, h.2, or_self, if_false]
  | timedEventually x a b =>
    simp only [operandsOf, List.mem_singleton, forall_eq] at h
    simp only [SigOp.result, computeTimedEventually, h, if_false]
  | timedGlobally x a b =>
    simp only [operandsOf, List.mem_singleton, forall_eq] at h
    simp only [SigOp.result, computeTimedGlobally, h, if_false]
  | globally x => rfl
  | boundedEventually x a =>
    simp only [operandsOf, List.mem_singleton, forall_eq] at h hz hw
    simp only [SigOp.result, h, if_false, clear_ne σ hz, clear_ne σ hw]
  | boundedGlobally x a =>
    simp only [operandsOf, List.mem_singleton, forall_eq] at h hz hw
    simp only [SigOp.result, h, if_false, clear_ne σ hz, clear_ne σ hw]
  | and x y | or x y | implies x y =>
    simp only [operandsOf, List.mem_cons, List.not_mem_nil, or_false, not_or] at hz hw
    simp only [SigOp.result, clear_ne σ hz.1, clear_ne σ hz.2, clear_ne σ hw.1, clear_ne σ hw.2]
  | not x | boolean x | leftTimeRob x | rightTimeRob x =>
    simp only [operandsOf, List.mem_singleton] at hz hw
    simp only [SigOp.result, clear_ne σ hz, clear_ne σ hw]

/-- **C86**: with no empty operand, a target that is not an operand, or any target for `compute_globally` and the
operations with an interval. -/
theorem C86_partial (B : ℚ) (σ : ℕ → Signal) (z w : ℕ) (op : SigOp) (hw : w ∉ operandsOf op)
    (h : ∀ x ∈ operandsOf op, (σ x).samples ≠ []) (hz : z ∉ operandsOf op ∨ Copies op) :
    (op.exec B σ z).map (· z) = (op.exec B σ w).map (· w) := by
  rw [exec_map, exec_map]
  rcases hz with hz | hz
  · exact result_apart B σ z w op hz hw h
  · cases op with
    | timedUntil x y a b =>
      simp only [operandsOf, List.mem_cons, List.not_mem_nil, or_false, forall_eq_or_imp, forall_eq] at h
      simp only [SigOp.result, computeTimedUntil, h.1, h.2, or_self, if_false]
    | timedEventually x a b =>
      simp only [operandsOf, List.mem_singleton, forall_eq] at h
      simp only [SigOp.result, computeTimedEventually, h, if_false]
    | timedGlobally x a b =>
      simp only [operandsOf, List.mem_singleton, forall_eq] at h
      simp only [SigOp.result, computeTimedGlobally, h, if_false]
    | globally x => rfl
    | _ => exact absurd hz id

/-- With a target `z` that is not an operand, the calls give what the operations give as functions. -/
theorem C86_apart (B : ℚ) (σ : ℕ → Signal) (x y z : ℕ) (a b : ℚ) (hx : z ≠ x) (hy : z ≠ y) :
    ((SigOp.not x).exec B σ z).map (· z) = .ok (computeNot (σ x)) ∧
    ((SigOp.boolean x).exec B σ z).map (· z) = computeBoolean (σ x) ∧
    ((SigOp.leftTimeRob x).exec B σ z).map (· z) = computeLeftTimeRob (σ x) ∧
    ((SigOp.rightTimeRob x).exec B σ z).map (· z) = computeRightTimeRob (σ x) ∧
    ((SigOp.and x y).exec B σ z).map (· z) = computeAndM (σ x) (σ y) ∧
    ((SigOp.or x y).exec B σ z).map (· z) = computeOrM (σ x) (σ y) ∧
    ((SigOp.implies x y).exec B σ z).map (· z) = computeImpliesM (σ x) (σ y) ∧
    ((SigOp.globally x).exec B σ z).map (· z) = computeGloballyM B (σ x) ∧
    ((SigOp.boundedEventually x a).exec B σ z).map (· z) = computeBoundedEventuallyM B (σ z) (σ x) a ∧
    ((SigOp.boundedGlobally x a).exec B σ z).map (· z) = computeBoundedGloballyM B (σ z) (σ x) a ∧
    ((SigOp.timedEventually x a b).exec B σ z).map (· z) = computeTimedEventually B (σ z) (σ x) a b ∧
    ((SigOp.timedGlobally x a b).exec B σ z).map (· z) = computeTimedGlobally B (σ z) (σ x) a b ∧
    ((SigOp.timedUntil x y a b).exec B σ z).map (· z) = computeTimedUntil B (σ z) (σ x) (σ y) a b := by
  simp only [exec_map, SigOp.result, clear_ne σ hx, clear_ne σ hy, computeBoundedEventuallyM, computeBoundedGloballyM,
    and_self]

/-- No other object changes. -/
theorem C86_others (B : ℚ) (σ σ' : ℕ → Signal) (z w : ℕ) (op : SigOp) (h : op.exec B σ z = .ok σ') (hw : w ≠ z) :
    σ' w = σ w := by
  unfold SigOp.exec at h
  cases hr : op.result B σ z with
  | error e => rw [hr] at h; cases h
  | ok r =>
    rw [hr] at h
    injection h with h
    rw [← h]
    exact Function.update_of_ne hw ..

/-- `x.compute_not(x)` empties `x`, whatever it holds. -/
theorem C86_not (B : ℚ) (σ : ℕ → Signal) (x : ℕ) :
    ((SigOp.not x).exec B σ x).map (· x) = .ok ⟨[], (σ x).beginTime, (σ x).endTime⟩ := by
  rw [exec_map]
  simp only [SigOp.result, clear_self]
  rfl

theorem and_no_left (x y : Signal) (h : x.samples = []) : computeAndM x y = .error .ub := by
  unfold computeAndM
  rw [h]
  rfl

theorem or_no_left (x y : Signal) (h : x.samples = []) : computeOrM x y = .error .ub := by
  unfold computeOrM
  rw [h]
  rfl

theorem skipGuarded_ub {e : ℚ} : ∀ {l : List Sample} {f : Fault}, skipGuarded e l = .error f → f = .ub
  | [], _, h => by injection h with h; exact h.symm
  | [_], _, h => by cases h
  | p :: q :: r, f, h => by
    rw [skipGuarded] at h
    split at h
    · exact skipGuarded_ub h
    · cases h

theorem and_no_right (x y : Signal) (h : y.samples = []) : computeAndM x y = .error .ub := by
  unfold computeAndM
  rw [h]
  cases hx : skipGuarded (fmin x.endTime y.endTime) x.samples.reverse with
  | error f => rw [skipGuarded_ub hx] at hx; simp only [hx]; rfl
  | ok l => simp only [hx]; rfl

theorem or_no_right (x y : Signal) (h : y.samples = []) : computeOrM x y = .error .ub := by
  unfold computeOrM
  rw [h]
  cases hx : skipGuarded (fmin x.endTime y.endTime) x.samples.reverse with
  | error f => rw [skipGuarded_ub hx] at hx; simp only [hx]; rfl
  | ok l => simp only [hx]; rfl

theorem clear_nil (σ : ℕ → Signal) (z : ℕ) : (SigOp.clear σ z z).samples = [] := by rw [clear_self]

/-- `compute_and`, `compute_or`, `compute_implies`, `compute_boolean` and the two time robustnesses on one of their own
operands are undefined behaviour, whatever the signals. -/
theorem C86_undefined (B : ℚ) (σ : ℕ → Signal) (x y : ℕ) :
    (SigOp.and x y).exec B σ x = .error .ub ∧ (SigOp.and x y).exec B σ y = .error .ub ∧
    (SigOp.or x y).exec B σ x = .error .ub ∧ (SigOp.or x y).exec B σ y = .error .ub ∧
    (SigOp.implies x y).exec B σ x = .error .ub ∧ (SigOp.implies x y).exec B σ y = .error .ub ∧
    (SigOp.boolean x).exec B σ x = .error .ub ∧ (SigOp.leftTimeRob x).exec B σ x = .error .ub ∧
    (SigOp.rightTimeRob x).exec B σ x = .error .ub := by
  have hb : computeBoolean (SigOp.clear σ x x) = .error .ub := by
    unfold computeBoolean
    rw [clear_nil]
    rfl
  refine ⟨?_, ?_, ?_, ?_, ?_, ?_, ?_, ?_, ?_⟩ <;> unfold SigOp.exec <;> simp only [SigOp.result]
  · rw [and_no_left _ _ (clear_nil σ x)]; rfl
  · rw [and_no_right _ _ (clear_nil σ y)]; rfl
  · rw [or_no_left _ _ (clear_nil σ x)]; rfl
  · rw [or_no_right _ _ (clear_nil σ y)]; rfl
  · rw [computeImpliesM, or_no_left _ _ (by simp [computeNot, clear_nil])]; rfl
  · rw [computeImpliesM, or_no_right _ _ (clear_nil σ y)]; rfl
  · rw [hb]; rfl
  · rw [computeLeftTimeRob, hb]; rfl
  · rw [computeRightTimeRob, hb]; rfl

/-- Three objects: a rising line, a constant, and a new signal. -/
def objects : ℕ → Signal
  | 0 => ⟨[⟨0, -1, 1⟩], 0, 4⟩
  | 1 => ⟨[⟨0, 2, 0⟩], 1, 3⟩
  | _ => Signal.empty

example : ((SigOp.timedGlobally 0 0 1).exec 1000 objects 0).map (· 0) =
    ((SigOp.timedGlobally 0 0 1).exec 1000 objects 2).map (· 2) :=
  C86_partial 1000 objects 0 2 _ (by decide) (by decide +kernel) (.inr trivial)

example : ∃ s, ((SigOp.timedGlobally 0 0 1).exec 1000 objects 0).map (· 0) = .ok s ∧ s.samples ≠ [] := by
  rw [exec_map]
  have h : ∀ r : M Signal, (match r with
      | .ok s => decide (s.samples ≠ [])
      | .error _ => false) = true → ∃ s, r = .ok s ∧ s.samples ≠ [] := by
    rintro (e | s) h
    · cases h
    · exact ⟨s, rfl, of_decide_eq_true h⟩
  exact h _ (by decide +kernel)

example : ((SigOp.implies 0 0).exec 1000 objects 1).map (· 1) = ((SigOp.implies 0 0).exec 1000 objects 2).map (· 2) :=
  C86_partial 1000 objects 1 2 _ (by decide) (by decide +kernel) (.inl (by decide))

/-- **C86 does not hold**: `x.compute_not(x)` leaves no sample of `x`. -/
theorem C86_false : ¬ C86_full := by
  intro h
  have h1 := h 1000 objects 0 2 (.not 0) (by decide) rfl
  rw [C86_not, exec_map] at h1
  revert h1
  decide +kernel

/-- Nor for the operations that copy their operands: with an empty operand the target keeps its old domain. -/
theorem C86_empty_false : ∃ (σ : ℕ → Signal) (z w : ℕ) (op : SigOp), Copies op ∧ z ∉ operandsOf op ∧
    w ∉ operandsOf op ∧ σ w = Signal.empty ∧ ∀ B, (op.exec B σ z).map (· z) ≠ (op.exec B σ w).map (· w) := by
  refine ⟨objects, 1, 2, .timedEventually 3 0 1, trivial, by decide, by decide, rfl, fun B => ?_⟩
  rw [exec_map, exec_map]
  show (.ok ⟨[], 1, 3⟩ : M Signal) ≠ .ok ⟨[], 0, 0⟩
  decide +kernel

/-- The second object negated into the third. -/
example : ((SigOp.not 1).exec 1000 objects 2).map (· 2) = .ok (computeNot (objects 1)) ∧ (objects 1).samples ≠ [] :=
  ⟨(C86_apart 1000 objects 1 1 2 0 1 (by decide) (by decide)).1, by decide⟩

end Props
end STLRom
