import Verif.Spec.Stl

/-!
# Formulas with at most one temporal operator, at the top
-/

namespace STLRom
namespace Spec

/-- Comparisons of signal expressions combined by not, and, or, =>. -/
def IsTimeless : Tr → Prop
  | .atom _ _ l r => IsTerm l ∧ IsTerm r
  | .not _ c => IsTimeless c
  | .and _ l r | .or _ l r | .implies _ l r => IsTimeless l ∧ IsTimeless r
  | _ => False

/-- A formula without temporal operators, or one `ev` or `alw` over such a formula. -/
def IsSingle : Tr → Prop
  | .ev _ _ c | .alw _ _ c => IsTimeless c
  | T => IsTimeless T

end Spec
end STLRom
