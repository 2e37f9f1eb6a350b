import Verif.Spec.Fml
import Mathlib.Algebra.Order.Field.Power

/-!
# Numbers with an exponent
-/

namespace STLRom
namespace Spec

/-- A decimal literal and an exponent: none if it has no digits; `e` or `E`, and a sign that may be missing. -/
structure Sci where
  lit : Lit
  capital : Bool
  sign : Option Bool
  exp : List (Fin 10)
  deriving DecidableEq

namespace Sci

/-- The sign of the exponent, `true` for minus. -/
def signChars : Option Bool → List Char
  | none => []
  | some true => ['-']
  | some false => ['+']

/-- The text. -/
def word (x : Sci) : List Char :=
  x.lit.word ++ if x.exp = [] then [] else (if x.capital then 'E' else 'e') :: (signChars x.sign ++ Lit.chars x.exp)

/-- The number. -/
def value (x : Sci) : ℚ :=
  x.lit.value * (10 : ℚ) ^ (if x.sign = some true then -(Lit.nat x.exp : ℤ) else (Lit.nat x.exp : ℤ))

/-- There is a digit before the exponent. -/
def Ok (x : Sci) : Prop := x.lit.whole ++ x.lit.frac ≠ []

end Sci
end Spec
end STLRom
