import Verif.Spec.Select

/-!
# Inputs on which rounding has nothing to do

Conditions on a trace and a formula under which every number that evaluation computes is kept by
rounding.
-/

namespace STLRom
namespace Spec

/-- The value of the expression and of its parts in every row is kept by the rounding `rd`. -/
def ExprKept (rd : ℚ → ℚ) (D : List (List ℚ)) (P : Assoc ℚ) : Tr → Prop
  | .sig s v m td => ∀ row ∈ D, rd (rowExpr P row (.sig s v m td)) = rowExpr P row (.sig s v m td)
  | .const _ p v _ => rd (number P p v) = number P p v
  | .abs _ c => ExprKept rd D P c
  | .plus s l r => (∀ row ∈ D, rd (rowExpr P row (.plus s l r)) = rowExpr P row (.plus s l r)) ∧
      ExprKept rd D P l ∧ ExprKept rd D P r
  | .minus s l r => (∀ row ∈ D, rd (rowExpr P row (.minus s l r)) = rowExpr P row (.minus s l r)) ∧
      ExprKept rd D P l ∧ ExprKept rd D P r
  | .mult s l r => (∀ row ∈ D, rd (rowExpr P row (.mult s l r)) = rowExpr P row (.mult s l r)) ∧
      ExprKept rd D P l ∧ ExprKept rd D P r
  | _ => True

/-- The same for the comparisons of the formula and their margins. -/
def MarginsKept (rd : ℚ → ℚ) (D : List (List ℚ)) (P : Assoc ℚ) : Tr → Prop
  | .atom _ k l r => (∀ row ∈ D, rd (margin k (rowExpr P row l) (rowExpr P row r)) =
      margin k (rowExpr P row l) (rowExpr P row r)) ∧ ExprKept rd D P l ∧ ExprKept rd D P r
  | .not _ c | .ev _ _ c | .alw _ _ c => MarginsKept rd D P c
  | .and _ l r | .or _ l r | .implies _ l r | .untl _ l _ r => MarginsKept rd D P l ∧ MarginsKept rd D P r
  | _ => True

/-- The same without the margins: the compared values are kept, their difference may be rounded. -/
def OperandsKept (rd : ℚ → ℚ) (D : List (List ℚ)) (P : Assoc ℚ) : Tr → Prop
  | .atom _ _ l r => ExprKept rd D P l ∧ ExprKept rd D P r
  | .not _ c | .ev _ _ c | .alw _ _ c => OperandsKept rd D P c
  | .and _ l r | .or _ l r | .implies _ l r | .untl _ l _ r => OperandsKept rd D P l ∧ OperandsKept rd D P r
  | _ => True

/-- Multiples of `1 / 2 ^ j`. -/
def OnGrid (j : ℕ) (t : ℚ) : Prop := ∃ k : ℤ, t = k / 2 ^ j

/-- The bounds of the intervals of the formula have `G`. -/
def BoundsIn (G : ℚ → Prop) (P : Assoc ℚ) : Tr → Prop
  | .not _ c => BoundsIn G P c
  | .ev _ I c | .alw _ I c =>
    G (bound P I.beginStr I.begin) ∧ G (bound P I.stopStr I.stop) ∧ BoundsIn G P c
  | .and _ l r | .or _ l r | .implies _ l r => BoundsIn G P l ∧ BoundsIn G P r
  | .untl _ l I r =>
    G (bound P I.beginStr I.begin) ∧ G (bound P I.stopStr I.stop) ∧ BoundsIn G P l ∧ BoundsIn G P r
  | _ => True

/-- Ten times the sum of the sizes of the bounds of nested intervals: evaluation computes no time
further from the trace and the horizon than this. -/
def allReach (P : Assoc ℚ) : Tr → ℚ
  | .not _ c => allReach P c
  | .ev _ I c | .alw _ I c =>
    10 * (|bound P I.beginStr I.begin| + |bound P I.stopStr I.stop|) + allReach P c
  | .and _ l r | .or _ l r | .implies _ l r => max (allReach P l) (allReach P r)
  | .untl _ l I r =>
    10 * (|bound P I.beginStr I.begin| + |bound P I.stopStr I.stop|) + max (allReach P l) (allReach P r)
  | _ => 0

end Spec
end STLRom
