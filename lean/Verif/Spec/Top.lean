import Verif.Spec.Stl

/-!
# Formulas with `until` outside all temporal operators
-/

namespace STLRom
namespace Spec

/-- Boolean combinations of until-free formulas and of `until` with until-free operands and a
window of positive length. -/
def UntilOutside (n : ℕ) (P : Assoc ℚ) : Tr → Prop
  | .untl _ l I r => 0 ≤ bound P I.beginStr I.begin ∧
      bound P I.beginStr I.begin < bound P I.stopStr I.stop ∧ IsFormula n P l ∧ IsFormula n P r
  | .not _ c => UntilOutside n P c
  | .and _ l r | .or _ l r | .implies _ l r => UntilOutside n P l ∧ UntilOutside n P r
  | T => IsFormula n P T

/-- Strictly between `-B` and `B`. -/
def Inside (B : ℚ) (x : EReal) : Prop := er (-B) < x ∧ x < er B

/-- Known defect (C63): an operand of `until` that begins at exactly `-B` or `B` makes the bounds
stop early.  This says that none does. -/
def BeginsInside (ip : Interpol) (B : ℚ) (D : List (List ℚ)) (P : Assoc ℚ) (t : ℚ) : Tr → Prop
  | .untl _ l I r => Inside B (rob ip D P l t) ∧ Inside B (rob ip D P r (t + bound P I.beginStr I.begin))
  | .not _ c => BeginsInside ip B D P t c
  | .and _ l r | .or _ l r | .implies _ l r => BeginsInside ip B D P t l ∧ BeginsInside ip B D P t r
  | _ => True

/-- As `Ready`, for one time and with `until` allowed outside temporal operators. -/
structure TopReady (n : ℕ) (B : ℚ) (m : Monitor) (T : Tr) (t : ℚ) : Prop where
  formula : m.formula = some T
  sem : m.sem = .SPACE
  interpol : m.ip = .LINEAR
  names : m.params.lookup "" = none
  rows : WellShaped n m.data
  shape : UntilOutside n m.params T
  sampled : AtomsOk m.data m.params t t T
  within : AtomsWithin .LINEAR B m.data m.params t t T
  bends : NoLongSlope .LINEAR m.data m.params t t T
  start : 0 ≤ t
  covers : Covers m.data t (t + reach m.params T)

end Spec
end STLRom
