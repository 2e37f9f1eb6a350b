import Verif.Spec.Interval
import Verif.Spec.Top

/-!
# `until` over step functions
-/

namespace STLRom
namespace Spec

/-- A monitor of `l until_[a,b] r` over two comparisons in SPACE mode with PREVIOUS interpolation,
evaluated at time `t`.  Its rows begin at or before `t` and go beyond `t + a`; they may end before
`t + b`, but then also before `b` (known defect, see C17).  Both comparisons stay within `±B` as
far as the rows go. -/
structure BegunUntilStep (n : ℕ) (B : ℚ) (m : Monitor) (st : St) (l : Tr) (I : Ival) (r : Tr)
    (a b t : ℚ) : Prop where
  formula : m.formula = some (.untl st l I r)
  sem : m.sem = .SPACE
  interpol : m.ip = .PREVIOUS
  names : m.params.lookup "" = none
  rows : WellShaped n m.data
  opens : bound m.params I.beginStr I.begin = a
  closes : bound m.params I.stopStr I.stop = b
  window : 0 ≤ a ∧ a < b
  atoms : IsAtom l ∧ IsAtom r
  shape : IsFormula n m.params l ∧ IsFormula n m.params r
  okLeft : AtomsStepTo m.data m.params t (t + b) l
  okRight : AtomsStepTo m.data m.params (t + a) (t + b) r
  big : 0 ≤ B
  withinLeft : AtomsWithinTo .PREVIOUS B m.data m.params t (t + b) l
  withinRight : AtomsWithinTo .PREVIOUS B m.data m.params (t + a) (t + b) r
  start : 0 ≤ t
  first : ∃ row t', m.data.head? = some row ∧ row.head? = some t' ∧ t' ≤ t
  reached : t + a < lastTime m.data
  timely : b ≤ lastTime m.data → t + b ≤ lastTime m.data

/-- For step functions and `until` outside all temporal operators.  As `StepOk`, with the operands
of each `until`; the right one does not jump exactly at the end of the window (known defect, see
C63: that value is lost). -/
def TopStepOk (D : List (List ℚ)) (P : Assoc ℚ) (t : ℚ) : Tr → Prop
  | .untl _ l I r =>
    let a := bound P I.beginStr I.begin
    let b := bound P I.stopStr I.stop
    StepOk D P t (t + b) l ∧ StepOk D P (t + a) (t + b) r ∧
      Settles (rob .PREVIOUS D P r) (t + a) (t + b)
  | .not _ c => TopStepOk D P t c
  | .and _ l r | .or _ l r | .implies _ l r => TopStepOk D P t l ∧ TopStepOk D P t r
  | T => StepOk D P t t T

/-- As `TopReady`, with PREVIOUS interpolation. -/
structure TopStepReady (n : ℕ) (B : ℚ) (m : Monitor) (T : Tr) (t : ℚ) : Prop where
  formula : m.formula = some T
  sem : m.sem = .SPACE
  interpol : m.ip = .PREVIOUS
  names : m.params.lookup "" = none
  rows : WellShaped n m.data
  shape : UntilOutside n m.params T
  big : 0 ≤ B
  within : AtomsWithin .PREVIOUS B m.data m.params t t T
  start : 0 ≤ t
  covers : Covers m.data t (t + reach m.params T)

end Spec
end STLRom
