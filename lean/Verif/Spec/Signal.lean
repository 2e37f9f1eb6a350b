import Verif.Model.Signal

/-!
# What a signal means

Independent of the code's own helpers: a signal is read as a function of time, once
from the right (the value at a time) and once from the left (the limit at a time).
-/

namespace STLRom
namespace Spec

/-- The value at `t`: the last sample at or before `t`, extrapolated along its slope. -/
def value (x : Signal) (t : ℚ) : Option ℚ :=
  (x.samples.filter fun p => decide (p.time ≤ t)).getLast?.map fun p =>
    p.value + p.derivative * (t - p.time)

/-- The limit at `t` from the left: the last sample strictly before `t`, extrapolated. -/
def leftValue (x : Signal) (t : ℚ) : Option ℚ :=
  (x.samples.filter fun p => decide (p.time < t)).getLast?.map fun p =>
    p.value + p.derivative * (t - p.time)

/-- A time-ordered signal: not empty, first sample at the begin time, times never
decreasing and never after the end time.  Several samples may share a time. -/
structure Ordered (x : Signal) : Prop where
  ne : x.samples ≠ []
  head : ∀ p, x.samples.head? = some p → p.time = x.beginTime
  sorted : x.samples.Pairwise fun p q => p.time ≤ q.time
  le_end : ∀ p ∈ x.samples, p.time ≤ x.endTime

/-- An ordered signal with a single sample at its begin time. -/
structure Proper (x : Signal) : Prop extends Ordered x where
  strict : ∀ p ∈ x.samples.tail, x.beginTime < p.time

/-- The signal has no jump at `t`. -/
def ContinuousAt (x : Signal) (t : ℚ) : Prop := value x t = leftValue x t

instance (x : Signal) (t : ℚ) : Decidable (ContinuousAt x t) :=
  inferInstanceAs (Decidable (value x t = leftValue x t))

/-- All values, on both sides of every time of the domain, lie in `[-B, B]`. -/
def Bounded (B : ℚ) (x : Signal) : Prop :=
  (∀ t v, x.beginTime ≤ t → t ≤ x.endTime → value x t = some v → -B ≤ v ∧ v ≤ B) ∧
  (∀ t v, x.beginTime < t → t ≤ x.endTime → leftValue x t = some v → -B ≤ v ∧ v ≤ B)

end Spec
end STLRom
