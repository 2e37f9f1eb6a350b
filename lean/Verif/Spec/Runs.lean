import Verif.Spec.Top
import Verif.Spec.UntilLin

/-!
# When the evaluation of a formula with `until` returns
-/

namespace STLRom
namespace Spec

/-- The left operand of every comparison is a single signal or constant, or the data has a row at the
end of the evaluation interval.  (Otherwise the operators `+`, `-`, `*` and `abs` lose the last piece, see C53, and the
comparison's signal stops before the end.) -/
def AtomsReach (D : List (List ℚ)) (P : Assoc ℚ) : ℚ → ℚ → Tr → Prop
  | s, e, .atom _ _ l _ => IsLeaf l ∨ s = e ∨ RowAt D e
  | s, e, .not _ c => AtomsReach D P s e c
  | s, e, .and _ l r | s, e, .or _ l r | s, e, .implies _ l r =>
    AtomsReach D P s e l ∧ AtomsReach D P s e r
  | s, e, .ev _ I c | s, e, .alw _ I c =>
    AtomsReach D P (s + bound P I.beginStr I.begin) (e + bound P I.stopStr I.stop) c
  | s, e, .untl _ l I r =>
    AtomsReach D P s (e + bound P I.stopStr I.stop) l ∧
      AtomsReach D P (s + bound P I.beginStr I.begin) (e + bound P I.stopStr I.stop) r
  | _, _, _ => True

/-- No `until` contains another one. -/
def UntilPlain (n : ℕ) (P : Assoc ℚ) : Tr → Prop
  | .not _ c | .ev _ _ c | .alw _ _ c => UntilPlain n P c
  | .and _ l r | .or _ l r | .implies _ l r => UntilPlain n P l ∧ UntilPlain n P r
  | .untl _ l _ r => IsFormula n P l ∧ IsFormula n P r
  | _ => True

/-- An `until`. -/
def IsUntil : Tr → Prop
  | .untl _ _ _ _ => True
  | _ => False

/-- No `until` is itself an operand of `and`, `or` or `=>`. -/
def UntilsApart : Tr → Prop
  | .not _ c | .ev _ _ c | .alw _ _ c => UntilsApart c
  | .and _ l r | .or _ l r | .implies _ l r =>
    UntilsApart l ∧ UntilsApart r ∧ ¬ IsUntil l ∧ ¬ IsUntil r
  | _ => True

/-- The operands of an `until` begin strictly inside `±B`, as in `BeginsInside`. -/
def OperandsInside (ip : Interpol) (B : ℚ) (D : List (List ℚ)) (P : Assoc ℚ) (s : ℚ) : Tr → Prop
  | .untl _ l I r => IsComparison l ∧ IsComparison r ∧ Inside B (rob ip D P l s) ∧
      Inside B (rob ip D P r (s + bound P I.beginStr I.begin))
  | _ => True

/-- Every `until` that is itself an operand of `and`, `or` or `=>` is over two comparisons that begin
strictly inside `±B`. -/
def BoolInside (ip : Interpol) (B : ℚ) (D : List (List ℚ)) (P : Assoc ℚ) : ℚ → Tr → Prop
  | s, .not _ c => BoolInside ip B D P s c
  | s, .and _ l r | s, .or _ l r | s, .implies _ l r =>
    BoolInside ip B D P s l ∧ BoolInside ip B D P s r ∧
      OperandsInside ip B D P s l ∧ OperandsInside ip B D P s r
  | s, .ev _ I c | s, .alw _ I c => BoolInside ip B D P (s + bound P I.beginStr I.begin) c
  | _, _ => True

/-- A monitor about to evaluate a formula, possibly with `until`, at the times from `s` to `e`, on data
that covers everything the formula looks at.  Any interpolation. -/
structure RunReady (n : ℕ) (m : Monitor) (T : Tr) (s e : ℚ) : Prop where
  formula : m.formula = some T
  sem : m.sem = .SPACE
  names : m.params.lookup "" = none
  rows : WellShaped n m.data
  shape : IsUntilFormula n m.params T
  ends : AtomsReach m.data m.params s e T
  start : 0 ≤ s
  order : s ≤ e
  covers : Covers m.data s (e + reach m.params T)

end Spec
end STLRom
