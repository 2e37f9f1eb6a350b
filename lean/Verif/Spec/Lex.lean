import Mathlib.Data.Nat.Notation

/-!
# What the scanner's rules say

The regular expressions of `src/stl_scanner.lpp` with their usual meaning, and maximal munch
with the earliest rule winning ties.  Written from the rules of the `.lpp` file, without
reference to the generated automaton.
-/

namespace STLRom
namespace Spec

/-- Regular expressions; a character class is a list of code ranges, possibly negated. -/
inductive Re where
  | empty
  | eps
  | cls (neg : Bool) (ranges : List (ℕ × ℕ))
  | seq (a b : Re)
  | alt (a b : Re)
  | star (a : Re)
  deriving DecidableEq, Repr

namespace Re

/-- Whether a class contains a character; characters stand for bytes. -/
def inCls (neg : Bool) (ranges : List (ℕ × ℕ)) (b : ℕ) : Bool :=
  (ranges.any fun r => decide (r.1 ≤ b) && decide (b ≤ r.2)) != neg

/-- The words of a regular expression. -/
inductive Matches : Re → List Char → Prop where
  | eps : Matches eps []
  | cls {neg ranges c} : inCls neg ranges (min c.toNat 255) = true → Matches (cls neg ranges) [c]
  | seq {a b u v} : Matches a u → Matches b v → Matches (seq a b) (u ++ v)
  | altL {a b u} : Matches a u → Matches (alt a b) u
  | altR {a b u} : Matches b u → Matches (alt a b) u
  | starNil {a} : Matches (star a) []
  | starCons {a u v} : Matches a u → Matches (star a) v → Matches (star a) (u ++ v)

/-- A single character. -/
def chr (c : Char) : Re := cls false [(c.toNat, c.toNat)]
/-- A fixed text. -/
def lit : List Char → Re
  | [] => eps
  | [c] => chr c
  | c :: s => seq (chr c) (lit s)
/-- One or more. -/
def plus (a : Re) : Re := seq a (star a)
/-- At most one. -/
def opt (a : Re) : Re := alt eps a

/-- `[0-9]`. -/
def digit : Re := cls false [(48, 57)]
/-- `[-+]?`. -/
def sign : Re := opt (cls false [(45, 45), (43, 43)])
/-- `.` in flex: anything but a newline. -/
def any : Re := cls true [(10, 10)]

end Re

open Re in
/-- The rules of `src/stl_scanner.lpp:63-165` in order; the first one is number 1. -/
def lexRules : List Re :=
  [plus (cls false [(32, 32), (9, 9), (13, 13)]),
   chr '\n',
   lit ['<', '>'], lit ['<', '>', '_'], lit ['[', ']'], lit ['[', ']', '_'],
   lit ['['], lit [']'], lit ['('], lit [')'],
   lit ['=', '>'], lit ['-', '>'],
   lit ['<'], lit ['>'], lit ['<', '='], lit ['>', '='],
   lit ['!'], lit [','], lit ['&'], lit ['|'], lit [':', '='], lit ['+'], lit ['-'], lit ['*'],
   seq (cls false [(97, 122), (65, 90)]) (star (cls false [(65, 90), (97, 122), (48, 57), (95, 95)])),
   seq sign (seq (star digit) (seq (chr '.') (plus digit))),
   seq sign (seq (star digit) (chr '.')),
   seq sign (plus digit),
   seq (chr '"') (seq (star (alt (seq (chr '\\') any) (cls true [(92, 92), (34, 34)]))) (chr '"')),
   seq (chr '#') (seq (star any) (chr '\n')),
   any]

/-- Rule number `n` (from 1) matches `u`. -/
def RuleMatches (n : ℕ) (u : List Char) : Prop :=
  0 < n ∧ ∃ r, lexRules[n - 1]? = some r ∧ r.Matches u

/-- `u` is what a scanner following the rules takes off the front of `text`: the longest
prefix some rule matches, by the first of the rules that match it. -/
def Munch (text : List Char) (n : ℕ) (u v : List Char) : Prop :=
  text = u ++ v ∧ u ≠ [] ∧ RuleMatches n u ∧
  (∀ m, RuleMatches m u → n ≤ m) ∧
  (∀ m u' v', text = u' ++ v' → RuleMatches m u' → u'.length ≤ u.length)

end Spec
end STLRom
