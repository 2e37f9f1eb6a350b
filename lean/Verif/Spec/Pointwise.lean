import Verif.Spec.Signal

/-!
# Pointwise combination of two signals
-/

namespace STLRom
namespace Spec

/-- `z` combines `x` and `y` by `op` at every time of the common domain `[b,e]`, from both
sides of each time.  At the closing time `e` the value of `z` is its limit from the left:
a jump of `x` or `y` exactly at `e` is not part of this statement. -/
structure Combines (op : ℚ → ℚ → ℚ) (x y z : Signal) : Prop where
  begin_eq : z.beginTime = max x.beginTime y.beginTime
  end_eq : z.endTime = min x.endTime y.endTime
  proper : Proper z
  value : ∀ t, z.beginTime ≤ t → t < z.endTime →
    ∃ u v, value x t = some u ∧ Spec.value y t = some v ∧ Spec.value z t = some (op u v)
  left : ∀ t, z.beginTime < t → t ≤ z.endTime →
    ∃ u v, leftValue x t = some u ∧ leftValue y t = some v ∧ leftValue z t = some (op u v)
  closing : z.beginTime < z.endTime → ContinuousAt z z.endTime

/-- The full claim: `z` combines `x` and `y` at every time of the common domain, its end
included. -/
def CombinesAll (op : ℚ → ℚ → ℚ) (x y z : Signal) : Prop :=
  z.beginTime = max x.beginTime y.beginTime ∧ z.endTime = min x.endTime y.endTime ∧
  ∀ t, z.beginTime ≤ t → t ≤ z.endTime →
    ∃ u v, Spec.value x t = some u ∧ Spec.value y t = some v ∧ Spec.value z t = some (op u v)

end Spec
end STLRom
