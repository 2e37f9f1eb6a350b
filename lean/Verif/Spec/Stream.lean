import Verif.Model.Stream
import Verif.Spec.Show

/-!
# What is written, independently of what was written before
-/

namespace STLRom
namespace Spec

/-- The numbers in a formula that are written as numbers, those in intervals left out. -/
def constants : Tr → List ℚ
  | .sig _ _ _ _ => []
  | .const _ p v _ => if p = "" then [v] else []
  | .abs _ c | .not _ c | .ev _ _ c | .alw _ _ c => constants c
  | .plus _ l r | .minus _ l r | .mult _ l r | .atom _ _ l r | .and _ l r | .or _ l r | .implies _ l r
  | .untl _ l _ r => constants l ++ constants r

/-- The numbers of an item, those left out for which the call itself sets the precision. -/
def numbersOut : OutItem → List ℚ
  | .point t v => [t, v]
  | .printPoint _ _ | .sample _ | .printSample _ => []
  | .sequence l => l.flatMap fun p => [p.1, p.2]
  | .signal x => [x.beginTime, x.endTime]
  | .formula T => constants T
  | .displayFormula m => m.formula.toList.flatMap constants
  | .displaySignals _ => []
  | .monitor m => m.params.map (·.2) ++ m.formula.toList.flatMap constants
  | .trace d => d.data.flatten
  | .driver d => d.params.map (·.2) ++ d.formulas.flatMap fun e => constants e.2

/-- `print_point` and `print_sample`. -/
def Fixes : OutItem → Prop
  | .printPoint _ _ | .printSample _ => True
  | _ => False

/-- Items in which samples are written. -/
def Sampled : OutItem → Prop
  | .sample _ | .signal _ => True
  | _ => False

end Spec
end STLRom
