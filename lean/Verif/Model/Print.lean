import Verif.Model.Transducer
import Mathlib.Data.Int.Log
import Mathlib.Data.Rat.Floor

/-!
# Printing formulas

The `print` methods of nodes and intervals, and how `operator<<` writes a number.
-/

namespace STLRom
namespace Print

/-- A digit. -/
def digit (n : ℕ) : Char := Char.ofNat (48 + n % 10)

/-- The last `k` decimal digits of `n`. -/
def digits : ℕ → ℕ → List Char
  | 0, _ => []
  | k + 1, n => digits k (n / 10) ++ [digit n]

/-- The digits after the point, without the zeros at the end, with the point. -/
def fraction (ds : List Char) : List Char :=
  match (ds.reverse.dropWhile (· == '0')).reverse with
  | [] => []
  | ds => '.' :: ds

/-- Rounding to the nearest natural number, ties to even. -/
def nearest (a : ℚ) : ℕ :=
  let f := ⌊a⌋.toNat
  if a - f < 1 / 2 then f else if 1 / 2 < a - f then f + 1 else if f % 2 = 0 then f else f + 1

/-- The six significant digits of a positive number, as a natural number, and the exponent of the
first one. -/
def significant (a : ℚ) : ℕ × ℤ :=
  let x := Int.log 10 a
  let n := nearest (a * 10 ^ (5 - x))
  if n = 10 ^ 6 then (10 ^ 5, x + 1) else (n, x)

/-- The two or more digits of an exponent. -/
def exponent (n : ℕ) : List Char := digits (if n < 100 then 2 else 3) n

/-- `os << x` for a `double` `x` and a stream with the default format: `%g` with six digits
(include/signal_expr.h:137, src/interval.cpp:43, 48).  Negative zero, infinities and NaN are not
modelled. -/
def number (q : ℚ) : List Char :=
  if q = 0 then ['0']
  else
    let (n, x) := significant |q|
    (if q < 0 then ['-'] else []) ++
      if -4 ≤ x ∧ x < 6 then
        digits (x.toNat + 1) (n / 10 ^ (5 - x).toNat) ++ fraction (digits (5 - x).toNat n)
      else
        digits 1 (n / 10 ^ 5) ++ fraction (digits 5 n) ++
          'e' :: (if x < 0 then '-' else '+') :: exponent x.natAbs

end Print

open Print

/-- `interval::to_string` (src/interval.cpp:39-53), which `interval::print` writes
(include/interval.h:34-36). -/
def Ival.print (I : Ival) : List Char :=
  '[' :: ((if I.beginStr = "" then number I.begin else I.beginStr.toList) ++
    ',' :: ((if I.stopStr = "" then number I.stop else I.stopStr.toList) ++ [']']))

/-- The `print` methods: signal (include/signal_expr.h:63-68), constant (135-138), `abs` (172-177),
`+` (206-211), `-` (236-241), `*` (267-272); `not` (include/transducer.h:271-274), `and` (307-311),
`or` (344-348), `=>` (381-385), `ev_` (417-423), `alw_` (452-458), `until_` (487-495) and
comparisons (542-555). -/
def Tr.print : Tr → List Char
  | sig _ x _ _ => x.toList ++ "[t]".toList
  | const _ p v _ => if p = "" then number v else p.toList
  | abs _ c => "abs( ".toList ++ (c.print ++ " )".toList)
  | plus _ l r => l.print ++ '+' :: r.print
  | minus _ l r => l.print ++ '-' :: r.print
  | mult _ l r => l.print ++ '*' :: r.print
  | atom _ k l r => l.print ++ ((match k with
    | .less => " < ".toList
    | .greater => " > ".toList) ++ r.print)
  | not _ c => "not ".toList ++ c.print
  | and _ l r => l.print ++ (" and ".toList ++ r.print)
  | or _ l r => l.print ++ (" or ".toList ++ r.print)
  | implies _ l r => l.print ++ (" => ".toList ++ r.print)
  | ev _ I c => "ev_".toList ++ (I.print ++ (" (".toList ++ (c.print ++ ") ".toList)))
  | alw _ I c => "alw_".toList ++ (I.print ++ (" (".toList ++ (c.print ++ ") ".toList)))
  | untl _ l I r => " (".toList ++ (l.print ++ (") until_".toList ++ (I.print ++
      (" (".toList ++ (r.print ++ ") ".toList)))))

end STLRom
