import Mathlib.Algebra.Order.Field.Rat
import Verif.Spec.Show

/-!
# Formulas with constants rounded to six digits
-/

namespace STLRom
namespace Spec

/-- `q'` is the nearest of the numbers with six significant digits: `n` units of the sixth digit of
`q`, with an even `n` if there are two. -/
def Nearest6 (q q' : ℚ) : Prop :=
  q = 0 ∧ q' = 0 ∨
  ∃ (x : ℤ) (n : ℕ), (10 : ℚ) ^ x ≤ |q| ∧ |q| < (10 : ℚ) ^ (x + 1) ∧
    q' = (if q < 0 then -1 else 1) * (n * (10 : ℚ) ^ (x - 5)) ∧
    |(n : ℚ) * (10 : ℚ) ^ (x - 5) - abs q| ≤ (10 : ℚ) ^ (x - 5) / 2 ∧
    (|(n : ℚ) * (10 : ℚ) ^ (x - 5) - abs q| = (10 : ℚ) ^ (x - 5) / 2 → n % 2 = 0)

/-- The intervals have the same names, and the numbers among their bounds are rounded. -/
def NearI (I J : Ival) : Prop :=
  J.beginStr = I.beginStr ∧ J.stopStr = I.stopStr ∧
    (I.beginStr = "" → Nearest6 I.begin J.begin) ∧ (I.stopStr = "" → Nearest6 I.stop J.stop)

/-- The trees have the same nodes and names, and the numbers of the second are those of the first,
rounded. -/
inductive NearT : Tr → Tr → Prop where
  | sig {s s' x m m' td td'} : NearT (.sig s x m td) (.sig s' x m' td')
  | param {s s' p v v' td td'} : p ≠ "" → NearT (.const s p v td) (.const s' p v' td')
  | const {s s' v v' td td'} : Nearest6 v v' → NearT (.const s "" v td) (.const s' "" v' td')
  | abs {s s' c c'} : NearT c c' → NearT (.abs s c) (.abs s' c')
  | plus {s s' l l' r r'} : NearT l l' → NearT r r' → NearT (.plus s l r) (.plus s' l' r')
  | minus {s s' l l' r r'} : NearT l l' → NearT r r' → NearT (.minus s l r) (.minus s' l' r')
  | mult {s s' l l' r r'} : NearT l l' → NearT r r' → NearT (.mult s l r) (.mult s' l' r')
  | atom {s s' k l l' r r'} : NearT l l' → NearT r r' → NearT (.atom s k l r) (.atom s' k l' r')
  | not {s s' c c'} : NearT c c' → NearT (.not s c) (.not s' c')
  | and {s s' l l' r r'} : NearT l l' → NearT r r' → NearT (.and s l r) (.and s' l' r')
  | or {s s' l l' r r'} : NearT l l' → NearT r r' → NearT (.or s l r) (.or s' l' r')
  | implies {s s' l l' r r'} : NearT l l' → NearT r r' → NearT (.implies s l r) (.implies s' l' r')
  | ev {s s' I I' c c'} : NearI I I' → NearT c c' → NearT (.ev s I c) (.ev s' I' c')
  | alw {s s' I I' c c'} : NearI I I' → NearT c c' → NearT (.alw s I c) (.alw s' I' c')
  | untl {s s' I I' l l' r r'} : NearI I I' → NearT l l' → NearT r r' → NearT (.untl s l I r) (.untl s' l' I' r')

end Spec
end STLRom
