import Verif.Spec.Stl

/-!
# The numbers a formula can be evaluated to

With piecewise constant signals the robustness of a formula is the robustness of one of its
comparisons at one of the rows, up to sign.
-/

namespace STLRom
namespace Spec

/-- Every signal in a comparison of the formula has a column in every row. -/
def Declared (n : ℕ) : Tr → Prop
  | .atom _ _ l r => IsExpr n l ∧ IsExpr n r
  | .not _ c | .ev _ _ c | .alw _ _ c => Declared n c
  | .and _ l r | .or _ l r | .implies _ l r | .untl _ l _ r => Declared n l ∧ Declared n r
  | _ => False

/-- `x` is the margin of one of the comparisons of the formula at one of the rows. -/
def MarginOf (D : List (List ℚ)) (P : Assoc ℚ) : Tr → ℚ → Prop
  | .atom _ k l r, x => ∃ row ∈ D, x = margin k (rowExpr P row l) (rowExpr P row r)
  | .not _ c, x | .ev _ _ c, x | .alw _ _ c, x => MarginOf D P c x
  | .and _ l r, x | .or _ l r, x | .implies _ l r, x | .untl _ l _ r, x =>
    MarginOf D P l x ∨ MarginOf D P r x
  | _, _ => False

/-- `x` is such a margin, up to sign, or one of `B`, `-B`, 0. -/
def Selected (B : ℚ) (D : List (List ℚ)) (P : Assoc ℚ) (T : Tr) (x : ℚ) : Prop :=
  x = 0 ∨ x = B ∨ x = -B ∨ MarginOf D P T x ∨ MarginOf D P T (-x)

end Spec
end STLRom
