import Verif.Model.Members
import Mathlib.Logic.Function.Basic

/-!
# Signal operations on objects

The members of `Signal` take their operands by reference, and the target may be one of them.
-/

namespace STLRom

/-- The calls `z.compute_...(x, ...)`, by the numbers of the objects that are passed.  `compute_eventually` and
`compute_until` are left out: with the target as operand they push samples into the deque they iterate over. -/
inductive SigOp where
  | not (x : ℕ)
  | boolean (x : ℕ)
  | leftTimeRob (x : ℕ)
  | rightTimeRob (x : ℕ)
  | and (x y : ℕ)
  | or (x y : ℕ)
  | implies (x y : ℕ)
  | globally (x : ℕ)
  | boundedEventually (x : ℕ) (a : ℚ)
  | boundedGlobally (x : ℕ) (a : ℚ)
  | timedEventually (x : ℕ) (a b : ℚ)
  | timedGlobally (x : ℕ) (a b : ℚ)
  | timedUntil (x y : ℕ) (a b : ℚ)
  deriving DecidableEq

namespace SigOp
open Signal

/-- The objects after `clear()` of the target `z`: `deque::clear` keeps `beginTime` and `endTime`. -/
def clear (σ : ℕ → Signal) (z : ℕ) : ℕ → Signal := Function.update σ z { σ z with samples := [] }

/-- What the target holds after the call.

* src/robustness.cpp:18-162: the target is cleared before the operands are read.
* src/robustness.cpp:173-186: the operand is read into a local signal first.
* src/robustness.cpp:240-266, 309-329: the last step is `compute_or(x, z3)` or `compute_and(x, z3)`, which clears the
  target.
* src/robustness.cpp:268-307, 331-411: the operands are copied first. -/
def result (B : ℚ) (σ : ℕ → Signal) (z : ℕ) : SigOp → M Signal
  | not x => .ok (computeNot (clear σ z x))
  | boolean x => computeBoolean (clear σ z x)
  | leftTimeRob x => computeLeftTimeRob (clear σ z x)
  | rightTimeRob x => computeRightTimeRob (clear σ z x)
  | and x y => computeAndM (clear σ z x) (clear σ z y)
  | or x y => computeOrM (clear σ z x) (clear σ z y)
  | implies x y => computeImpliesM (clear σ z x) (clear σ z y)
  | globally x => computeGloballyM B (σ x)
  | boundedEventually x a =>
    if (σ x).samples = [] then .ok { σ z with samples := [] }
    else do
      let z1 ← plateauMaxM B (σ x) a
      let z2 ← resize empty ((σ x).beginTime + a) ((σ x).endTime + a) (-B)
      let z3 ← computeOrM (shift z2 (-a)) z1
      let r ← computeOrM (clear σ z x) z3
      simplify r
  | boundedGlobally x a =>
    if (σ x).samples = [] then .ok { σ z with samples := [] }
    else do
      let z1 ← plateauMinM B (σ x) a
      let z2 ← resize empty ((σ x).beginTime + a) ((σ x).endTime + a) B
      let z3 ← computeAndM (shift z2 (-a)) z1
      let r ← computeAndM (clear σ z x) z3
      simplify r
  | timedEventually x a b => computeTimedEventually B (σ z) (σ x) a b
  | timedGlobally x a b => computeTimedGlobally B (σ z) (σ x) a b
  | timedUntil x y a b => computeTimedUntil B (σ z) (σ x) (σ y) a b

/-- The objects after the call. -/
def exec (B : ℚ) (σ : ℕ → Signal) (z : ℕ) (op : SigOp) : M (ℕ → Signal) := do
  let r ← op.result B σ z
  .ok (Function.update σ z r)

end SigOp
end STLRom
