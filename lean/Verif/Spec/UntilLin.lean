import Verif.Spec.UntilNest

/-!
# Formulas with `until` below temporal operators, with LINEAR interpolation
-/

namespace STLRom
namespace Spec
open Tr

/-- A single comparison. -/
def IsComparison : Tr → Prop
  | .atom _ _ _ _ => True
  | _ => False

/-- The end of the signal computed for a formula evaluated up to time `e`: `until` goes on for the
length of its interval. -/
def farEnd (P : Assoc ℚ) (e : ℚ) : Tr → ℚ
  | .not _ c => farEnd P e c
  | .and _ l r | .or _ l r => max (farEnd P e l) (farEnd P e r)
  | .implies _ l r => min (farEnd P e l) (farEnd P e r)
  | .untl _ _ I _ => e + bound P I.stopStr I.stop - bound P I.beginStr I.begin
  | _ => e

/-- `Marked`, for formulas with `until`: the signal of an `until` has a sample at its end. -/
def MarkedU (D : List (List ℚ)) (u w : ℚ) : Tr → Prop
  | .not _ c => MarkedU D u w c
  | .untl _ _ _ _ => True
  | T => Marked D u w T

/-- What is asked of a formula with `until` on the evaluation interval from `s` to `e`.  Every `until`
compares two comparisons and is evaluated on an interval of positive length, that is inside an `ev` or
an `alw` whose interval has one, and some row lies in its last window.  The signals of the two operands
of `and` and `or` end together (otherwise the code continues the shorter one along its last slope).  As in
`NoLongSlope`, no operand of a temporal operator runs as one sloped straight line, without a sample, from
before the end of the first window to the end (known defect C09, C12). -/
def LinNestOk (D : List (List ℚ)) (P : Assoc ℚ) : ℚ → ℚ → Tr → Prop
  | s, e, .atom st k l r => AtomsOk D P s e (.atom st k l r)
  | s, e, .not _ c => LinNestOk D P s e c
  | s, e, .and _ l r | s, e, .or _ l r =>
    LinNestOk D P s e l ∧ LinNestOk D P s e r ∧ farEnd P e l = farEnd P e r
  | s, e, .implies _ l r => LinNestOk D P s e l ∧ LinNestOk D P s e r
  | s, e, .ev _ I c | s, e, .alw _ I c =>
    LinNestOk D P (s + bound P I.beginStr I.begin) (e + bound P I.stopStr I.stop) c ∧
    (s < e → bound P I.beginStr I.begin < bound P I.stopStr I.stop →
      MarkedU D (s + bound P I.stopStr I.stop) (e + bound P I.stopStr I.stop) c ∨
      Bends (rob .LINEAR D P c) (s + bound P I.beginStr I.begin) (s + bound P I.stopStr I.stop)
        (e + bound P I.stopStr I.stop))
  | s, e, .untl _ l I r =>
    s < e ∧ IsComparison l ∧ IsComparison r ∧ AtomsOk D P s (e + bound P I.stopStr I.stop) l ∧
      AtomsOk D P (s + bound P I.beginStr I.begin) (e + bound P I.stopStr I.stop) r ∧
      ∃ row ∈ D, ∃ t, row.head? = some t ∧ s + bound P I.stopStr I.stop ≤ t ∧ t ≤ e + bound P I.stopStr I.stop
  | _, _, _ => True

/-- A monitor ready to evaluate, at time `t`, a formula with `until` below temporal operators, with
LINEAR interpolation and data that covers everything the formula looks at. -/
structure LinNestReady (n : ℕ) (B : ℚ) (m : Monitor) (T : Tr) (t : ℚ) : Prop where
  formula : m.formula = some T
  sem : m.sem = .SPACE
  interpol : m.ip = .LINEAR
  names : m.params.lookup "" = none
  rows : WellShaped n m.data
  shape : IsUntilFormula n m.params T
  ok : LinNestOk m.data m.params t t T
  within : AtomsWithin .LINEAR B m.data m.params t t T
  start : 0 ≤ t
  covers : Covers m.data t (t + reach m.params T)

end Spec
end STLRom
