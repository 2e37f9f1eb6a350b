import Verif.Spec.Select

/-!
# The computed margins of a formula

The value of an expression and the margin of a comparison in a row when every sum, difference and
product is rounded by `rd`.
-/

namespace STLRom
namespace Spec

/-- An expression computed on the values of one row: the result of every operation is rounded. -/
def flExpr (rd : ℚ → ℚ) (P : Assoc ℚ) (row : List ℚ) : Tr → ℚ
  | .sig _ v m _ => row.getD ((m.lookup v).getD 0) 0
  | .const _ p v _ => number P p v
  | .abs _ c => |flExpr rd P row c|
  | .plus _ l r => rd (flExpr rd P row l + flExpr rd P row r)
  | .minus _ l r => rd (flExpr rd P row l - flExpr rd P row r)
  | .mult _ l r => rd (flExpr rd P row l * flExpr rd P row r)
  | _ => 0

/-- `x` is the computed margin of one of the comparisons of the formula at one of the rows. -/
def FlMarginOf (rd : ℚ → ℚ) (D : List (List ℚ)) (P : Assoc ℚ) : Tr → ℚ → Prop
  | .atom _ k l r, x => ∃ row ∈ D, x = rd (margin k (flExpr rd P row l) (flExpr rd P row r))
  | .not _ c, x | .ev _ _ c, x | .alw _ _ c, x => FlMarginOf rd D P c x
  | .and _ l r, x | .or _ l r, x | .implies _ l r, x | .untl _ l _ r, x =>
    FlMarginOf rd D P l x ∨ FlMarginOf rd D P r x
  | _, _ => False

/-- `x` is such a margin, up to sign, or one of `B`, `-B`, 0. -/
def FlSelected (rd : ℚ → ℚ) (B : ℚ) (D : List (List ℚ)) (P : Assoc ℚ) (T : Tr) (x : ℚ) : Prop :=
  x = 0 ∨ x = B ∨ x = -B ∨ FlMarginOf rd D P T x ∨ FlMarginOf rd D P T (-x)

/-- The constants of the expression are kept by `rd`. -/
def ExprConsts (rd : ℚ → ℚ) (P : Assoc ℚ) : Tr → Prop
  | .const _ p v _ => rd (number P p v) = number P p v
  | .abs _ c => ExprConsts rd P c
  | .plus _ l r | .minus _ l r | .mult _ l r => ExprConsts rd P l ∧ ExprConsts rd P r
  | _ => True

/-- The constants in the comparisons of the formula are kept by `rd`. -/
def Consts (rd : ℚ → ℚ) (P : Assoc ℚ) : Tr → Prop
  | .atom _ _ l r => ExprConsts rd P l ∧ ExprConsts rd P r
  | .not _ c | .ev _ _ c | .alw _ _ c => Consts rd P c
  | .and _ l r | .or _ l r | .implies _ l r | .untl _ l _ r => Consts rd P l ∧ Consts rd P r
  | _ => True

/-- `y` is a number of the format binary64, if there were no greatest one: an integer of at most 53 bits
times a power of two (`2 ^ 53` itself has another such form). -/
def IsDouble (y : ℚ) : Prop := ∃ N q : ℤ, |N| ≤ 2 ^ 53 ∧ -1074 ≤ q ∧ y = N * (2 : ℚ) ^ q

end Spec
end STLRom
