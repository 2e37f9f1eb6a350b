import Mathlib.Data.Rat.Defs
import Mathlib.Algebra.Order.Ring.Unbundled.Rat
import Mathlib.Algebra.Order.Ring.Rat

/-!
# Outcomes of running the C++ code

A `double` is modelled by an exact rational number.  Rounding is modelled apart
(`Model/Rounded`, `Model/Double`), NaN and infinities are not (see DESIGN.md); an operation that would produce a
non-finite double from finite ones is the distinct outcome `Fault.nonfinite`.
-/

namespace STLRom

/-- The ways a C++ call can fail to return an ordinary value.

* `ub`: undefined behaviour (dereferencing `rend()`, `front()` of an empty
  deque, comparing iterators of different containers, ...);
* `nonfinite`: a floating-point division by zero;
* `fuel`: the model's bound on the number of loop iterations was reached
  (the theorems show this never happens on the inputs they cover);
* `exn`: a C++ exception, with its type and message. -/
inductive Fault where
  | ub
  | nonfinite
  | fuel
  | exn (msg : String)
  deriving DecidableEq, Repr

/-- Result of a C++ call. -/
abbrev M (α : Type) := Except Fault α

instance {α : Type} [DecidableEq α] : DecidableEq (M α)
  | .ok a, .ok b => if h : a = b then isTrue (by rw [h]) else isFalse (by simpa using h)
  | .error a, .error b => if h : a = b then isTrue (by rw [h]) else isFalse (by simpa using h)
  | .ok _, .error _ => isFalse (by simp)
  | .error _, .ok _ => isFalse (by simp)

/-- Floating-point division; dividing by zero gives an infinity or a NaN. -/
def qdiv (a b : ℚ) : M ℚ := if b = 0 then .error .nonfinite else .ok (a / b)

end STLRom
