import Verif.Spec.Stl

/-!
# Formulas with `until` inside other operators
-/

namespace STLRom
namespace Spec
open Tr

/-- A formula over known signals with intervals that do not run backwards.  `until` may stand
anywhere, with an interval of positive length. -/
def IsUntilFormula (n : ℕ) (P : Assoc ℚ) : Tr → Prop
  | .atom _ _ l r => IsExpr n l ∧ IsExpr n r
  | .not _ c => IsUntilFormula n P c
  | .and _ l r | .or _ l r | .implies _ l r => IsUntilFormula n P l ∧ IsUntilFormula n P r
  | .ev _ I c | .alw _ I c =>
    0 ≤ bound P I.beginStr I.begin ∧
      bound P I.beginStr I.begin ≤ bound P I.stopStr I.stop ∧ IsUntilFormula n P c
  | .untl _ l I r =>
    0 ≤ bound P I.beginStr I.begin ∧ bound P I.beginStr I.begin < bound P I.stopStr I.stop ∧
      IsUntilFormula n P l ∧ IsUntilFormula n P r
  | _ => False

/-- `StepOk` for formulas with `until`.  Every `until` is evaluated on an interval of positive
length, that is inside an `ev` or an `alw` whose interval has one, and its right operand does not
jump exactly at the end of its evaluation interval (known defect C22: a value reached only there
is lost). -/
def NestOk (D : List (List ℚ)) (P : Assoc ℚ) : ℚ → ℚ → Tr → Prop
  | s, e, .atom _ _ l r => IsLeaf l ∧ IsLeaf r ∨ s = e ∨ RowAt D e
  | s, e, .not _ c => NestOk D P s e c
  | s, e, .and _ l r | s, e, .or _ l r | s, e, .implies _ l r =>
    NestOk D P s e l ∧ NestOk D P s e r ∧
      Settles (rob .PREVIOUS D P l) s e ∧ Settles (rob .PREVIOUS D P r) s e
  | s, e, .ev _ I c | s, e, .alw _ I c =>
    NestOk D P (s + bound P I.beginStr I.begin) (e + bound P I.stopStr I.stop) c
  | s, e, .untl _ l I r =>
    s < e ∧ NestOk D P s (e + bound P I.stopStr I.stop) l ∧
      NestOk D P (s + bound P I.beginStr I.begin) (e + bound P I.stopStr I.stop) r ∧
      Settles (rob .PREVIOUS D P r) (s + bound P I.beginStr I.begin) (e + bound P I.stopStr I.stop)
  | _, _, _ => True

/-- A monitor ready to evaluate, at time `t`, a formula with `until` inside temporal operators,
with PREVIOUS interpolation and data that covers everything the formula looks at. -/
structure NestReady (n : ℕ) (B : ℚ) (m : Monitor) (T : Tr) (t : ℚ) : Prop where
  formula : m.formula = some T
  sem : m.sem = .SPACE
  interpol : m.ip = .PREVIOUS
  names : m.params.lookup "" = none
  rows : WellShaped n m.data
  shape : IsUntilFormula n m.params T
  ok : NestOk m.data m.params t t T
  within : AtomsWithin .PREVIOUS B m.data m.params t t T
  start : 0 ≤ t
  covers : Covers m.data t (t + reach m.params T)

end Spec
end STLRom
