import Verif.Spec.Interval
import Verif.Spec.Top

/-!
# Raising a formula's comparisons
-/

namespace STLRom
namespace Spec

/-- In corresponding rows of `D` and `D'`, the margin of every comparison that counts positively
(under an even number of negations; the left side of `=>` is negated) is at most as large in `D` as
in `D'`, and the other way round for those that count negatively. -/
def SampledUp (D D' : List (List ℚ)) (P : Assoc ℚ) : Bool → Tr → Prop
  | p, .atom _ k l r => ∀ row ∈ D.zip D',
    if p then margin k (rowExpr P row.1 l) (rowExpr P row.1 r) ≤ margin k (rowExpr P row.2 l) (rowExpr P row.2 r)
    else margin k (rowExpr P row.2 l) (rowExpr P row.2 r) ≤ margin k (rowExpr P row.1 l) (rowExpr P row.1 r)
  | p, .not _ c => SampledUp D D' P (!p) c
  | p, .and _ l r | p, .or _ l r | p, .untl _ l _ r => SampledUp D D' P p l ∧ SampledUp D D' P p r
  | p, .implies _ l r => SampledUp D D' P (!p) l ∧ SampledUp D D' P p r
  | p, .ev _ _ c | p, .alw _ _ c => SampledUp D D' P p c
  | _, _ => True

end Spec
end STLRom
