import Verif.Model.Alias

/-!
# Operations on signals as functions of their operands
-/

namespace STLRom
namespace Spec

/-- The operands of a call. -/
def operandsOf : SigOp → List ℕ
  | .not x | .boolean x | .leftTimeRob x | .rightTimeRob x | .globally x | .boundedEventually x _
  | .boundedGlobally x _ | .timedEventually x _ _ | .timedGlobally x _ _ => [x]
  | .and x y | .or x y | .implies x y | .timedUntil x y _ _ => [x, y]

/-- `compute_globally` and the operations with an interval. -/
def Copies : SigOp → Prop
  | .globally _ | .timedEventually _ _ _ | .timedGlobally _ _ _ | .timedUntil _ _ _ _ => True
  | _ => False

end Spec
end STLRom
