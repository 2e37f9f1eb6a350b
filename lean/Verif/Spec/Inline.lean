import Verif.Model.World

/-!
# Writing the current parameter values into a formula
-/

namespace STLRom
namespace Spec

/-- A parameter used as an interval bound is replaced by its value; a bound that is not a
declared parameter is left alone. -/
def inlineIval (P : Assoc ℚ) (I : Ival) : Ival :=
  let (a, an) := match P.lookup I.beginStr with
    | some v => (v, "")
    | none => (I.begin, I.beginStr)
  let (b, bn) := match P.lookup I.stopStr with
    | some v => (v, "")
    | none => (I.stop, I.stopStr)
  ⟨a, b, an, bn⟩

/-- The formula with every declared parameter replaced by the literal it stands for. -/
def substParams (P : Assoc ℚ) : Tr → Tr
  | .sig s v m t => .sig s v m t
  | .const s p v t =>
    match P.lookup p with
    | some w => .const s "" w t
    | none => .const s p v t
  | .abs s c => .abs s (substParams P c)
  | .plus s l r => .plus s (substParams P l) (substParams P r)
  | .minus s l r => .minus s (substParams P l) (substParams P r)
  | .mult s l r => .mult s (substParams P l) (substParams P r)
  | .atom s k l r => .atom s k (substParams P l) (substParams P r)
  | .not s c => .not s (substParams P c)
  | .and s l r => .and s (substParams P l) (substParams P r)
  | .or s l r => .or s (substParams P l) (substParams P r)
  | .implies s l r => .implies s (substParams P l) (substParams P r)
  | .ev s I c => .ev s (inlineIval P I) (substParams P c)
  | .alw s I c => .alw s (inlineIval P I) (substParams P c)
  | .untl s l I r => .untl s (substParams P l) (inlineIval P I) (substParams P r)

end Spec
end STLRom
