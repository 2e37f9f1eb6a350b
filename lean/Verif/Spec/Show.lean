import Verif.Spec.Program

/-!
# Formulas whose printed text can be read back

Printing writes no parentheses around the operands of `not`, `and`, `or`, `=>`, `+`, `-`, `*`, so a
formula can be read back only if the grammar groups the operators that way by itself.
-/

namespace STLRom
namespace Spec

/-- Numbers with at most six significant digits, not so small as to need an exponent. -/
def Short (q : ℚ) : Prop :=
  q = 0 ∨ 1 / 10 ^ 4 ≤ |q| ∧ ∃ n k : ℕ, n < 10 ^ 6 ∧ |q| = n / 10 ^ k

/-- A constant without a name that is not negative. -/
def Unsigned : Tr → Prop
  | .const _ p v _ => p = "" ∧ 0 ≤ v
  | _ => False

/-- Signal expressions; with `true` those that can be the right operand of `+`, `-`, `*`. -/
inductive ClearS : Bool → Tr → Prop where
  | param {st p v td} : p ≠ "" → ClearS true (.const st p v td)
  | const {st v td} : Short v → ClearS true (.const st "" v td)
  | sig {st x m td} : ClearS true (.sig st x m td)
  | single {T} : ClearS true T → ClearS false T
  | abs {st c} : ClearS false c → ClearS false (.abs st c)
  | plus {st l r} : ClearS false l → ClearS true r → ¬ Unsigned r → ClearS false (.plus st l r)
  | minus {st l r} : ClearS false l → ClearS true r → ¬ Unsigned r → ClearS false (.minus st l r)
  | mult {st l r} : ClearS false l → ClearS true r → ClearS false (.mult st l r)

/-- Intervals: a bound is a parameter or a number of six digits. -/
def ClearI (I : Ival) : Prop :=
  (I.beginStr = "" → Short I.begin) ∧ (I.stopStr = "" → Short I.stop)

/-- Formulas, by the category in which the text is read. -/
inductive Clear : Cat → Tr → Prop where
  | atom {st k l r} : ClearS false l → ClearS false r → Clear .prim (.atom st k l r)
  | ev {st I c} : ClearI I → Clear .all c → Clear .prim (.ev st I c)
  | alw {st I c} : ClearI I → Clear .all c → Clear .prim (.alw st I c)
  | untl {st l I r} : ClearI I → Clear .all l → Clear .all r → Clear .unt (.untl st l I r)
  | not {st k c} : k = .unt ∨ k = .notOr → Clear k c → Clear .preOr (.not st c)
  | notAnd {st c} : Clear .notAnd c → Clear .preAnd (.not st c)
  | notImplies {st st' l r} : Clear .unt l → Clear .chain r → Clear .preAnd (.not st (.implies st' l r))
  | one {k T} : k = .prim ∨ k = .preOr ∨ k = .preAnd → Clear k T → Clear k.join T
  | chain {k T} : k = .unt ∨ k = .notOr ∨ k = .notAnd → Clear k T → Clear .chain T
  | or {st k l r} : k = .unt ∨ k = .notOr → Clear k l → Clear .chain r → Clear .chain (.or st l r)
  | implies {st l r} : Clear .unt l → Clear .chain r → Clear .chain (.implies st l r)
  | all {T} : Clear .chain T → Clear .all T
  | and {st l r} : Clear .all l → Clear .chain r → Clear .all (.and st l r)

/-- Nodes of signal expressions. -/
def isExprTree : Tr → Bool
  | .sig .. | .const .. => true
  | .abs _ c => isExprTree c
  | .plus _ l r | .minus _ l r | .mult _ l r => isExprTree l && isExprTree r
  | _ => false

/-- Nodes of formulas. -/
def isTree : Tr → Bool
  | .atom _ _ l r => isExprTree l && isExprTree r
  | .not _ c | .ev _ _ c | .alw _ _ c => isTree c
  | .and _ l r | .or _ l r | .implies _ l r | .untl _ l _ r => isTree l && isTree r
  | _ => false

/-- The driver knows the parameter, or there is none. -/
def KnownP (d : Driver) (p : String) : Prop := p = "" ∨ NumOk d (.par p)

/-- The driver knows the names of the nodes. -/
def Known (d : Driver) : Tr → Prop
  | .sig _ x _ _ => SOk d (.sig x)
  | .const _ p _ _ => KnownP d p
  | .abs _ c | .not _ c => Known d c
  | .plus _ l r | .minus _ l r | .mult _ l r | .atom _ _ l r | .and _ l r | .or _ l r
  | .implies _ l r => Known d l ∧ Known d r
  | .ev _ I c | .alw _ I c => KnownP d I.beginStr ∧ KnownP d I.stopStr ∧ Known d c
  | .untl _ l I r => KnownP d I.beginStr ∧ KnownP d I.stopStr ∧ Known d l ∧ Known d r

/-- The interval as the parser makes it: bounds given by a parameter hold 0. -/
def renewI (I : Ival) : Ival :=
  ⟨if I.beginStr = "" then I.begin else 0, if I.stopStr = "" then I.stop else 0, I.beginStr, I.stopStr⟩

/-- The same nodes, new, with the signals `m`. -/
def renew (m : Assoc ℕ) : Tr → Tr
  | .sig _ x _ _ => .sig .init x m none
  | .const _ p v _ => .const .init p (if p = "" then v else 0) none
  | .abs _ c => .abs .init (renew m c)
  | .plus _ l r => .plus .init (renew m l) (renew m r)
  | .minus _ l r => .minus .init (renew m l) (renew m r)
  | .mult _ l r => .mult .init (renew m l) (renew m r)
  | .atom _ k l r => .atom .init k (renew m l) (renew m r)
  | .not _ c => .not .init (renew m c)
  | .and _ l r => .and .init (renew m l) (renew m r)
  | .or _ l r => .or .init (renew m l) (renew m r)
  | .implies _ l r => .implies .init (renew m l) (renew m r)
  | .ev _ I c => .ev .init (renewI I) (renew m c)
  | .alw _ I c => .alw .init (renewI I) (renew m c)
  | .untl _ l I r => .untl .init (renew m l) (renewI I) (renew m r)

end Spec
end STLRom
