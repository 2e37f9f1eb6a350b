import Verif.Model.Transducer

/-!
# Negation normal form

The laws by which a negation is moved towards the comparisons: double negation, De Morgan,
`not ev = alw not`, `not alw = ev not`, `not (l > r) = l < r`.  Implications and `until` stay as
they are, a negation in front of them stays in place; the laws are applied below them.
-/

namespace STLRom
namespace Spec

/-- The opposite comparison. -/
def opposite : Cmp → Cmp
  | .less => .greater
  | .greater => .less

/-- `nnf false T` is `T` with all negations moved inwards; `nnf true T` is the same for `not T`.
The node states are carried along; evaluation resets them. -/
def nnf : Bool → Tr → Tr
  | false, .atom s k l r => .atom s k l r
  | true, .atom s k l r => .atom s (opposite k) l r
  | b, .not _ c => nnf (!b) c
  | false, .and s l r => .and s (nnf false l) (nnf false r)
  | true, .and s l r => .or s (nnf true l) (nnf true r)
  | false, .or s l r => .or s (nnf false l) (nnf false r)
  | true, .or s l r => .and s (nnf true l) (nnf true r)
  | false, .ev s I c => .ev s I (nnf false c)
  | true, .ev s I c => .alw s I (nnf true c)
  | false, .alw s I c => .alw s I (nnf false c)
  | true, .alw s I c => .ev s I (nnf true c)
  | false, .implies s l r => .implies s (nnf false l) (nnf false r)
  | true, .implies s l r => .not s (.implies s (nnf false l) (nnf false r))
  | false, .untl s l I r => .untl s (nnf false l) I (nnf false r)
  | true, .untl s l I r => .not s (.untl s (nnf false l) I (nnf false r))
  | _, T => T

end Spec
end STLRom
