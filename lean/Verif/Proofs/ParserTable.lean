import Verif.Model.Parser

/-!
# The tables of the parser

Which states can lie under which, what the rules' right-hand sides are, and the finite checks
that the tables respect both.  `Verif.Proofs.Parser` lifts them to all inputs.
-/

namespace STLRom
namespace Parse

/-- No state has an action on the `error` token (symbol 1), so the search of
src/stl_parser.cpp:1331-1352 never stops before the stack is empty. -/
theorem no_error_state : ((List.range 134).all fun s =>
    let i := yyPact.getD s 0 + 1
    yyPact.getD s 0 == pactNinf || decide (i < 0) || decide (yyLast < i) ||
      yyCheck.getD i.toNat (-1) != 1) = true := by
  decide +kernel

/-- For every state, the states that can lie directly under it. -/
def below : List (List ℕ) :=
  [[], [0, 10], [0], [0, 10], [0, 10], [0], [0, 10], [0], [0], [0], [0], [1, 28], [1, 28],
   [1], [1], [2, 29], [2, 29], [2], [2], [3], [4], [6], [10], [10], [10], [10], [11], [12],
   [14], [18], [19], [20, 31, 32, 62, 63, 72, 73, 74, 99, 104], [20, 31, 32, 62, 63, 72, 73,
   74, 99, 104], [20, 31, 32, 62, 63, 72, 73, 74, 99, 104], [20, 31, 32, 62, 63, 72, 73, 74,
   99, 104], [20, 31, 32, 62, 63, 64, 71, 72, 73, 74, 89, 99, 104], [20, 31, 32, 62, 63, 64,
   66, 67, 68, 71, 72, 73, 74, 89, 99, 104], [20, 31, 32, 62, 63, 64, 66, 67, 68, 71, 72, 73,
   74, 89, 99, 104], [20, 31, 32, 62, 63, 72, 73, 74, 99, 104], [20, 31, 32, 62, 63, 64, 66,
   67, 68, 71, 72, 73, 74, 89, 99, 104], [20, 31, 32, 62, 63, 64, 66, 67, 68, 71, 72, 73, 74,
   89, 99, 104], [20, 31, 32, 62, 63, 64, 66, 67, 68, 71, 72, 73, 74, 89, 99, 104], [20, 31,
   32, 62, 63, 64, 71, 72, 73, 74, 89, 99, 104], [20, 31, 32, 62, 63, 64, 71, 72, 73, 74, 89,
   99, 104], [20, 31, 32, 62, 63, 64, 71, 72, 73, 74, 89, 99, 104], [20, 31, 32, 62, 63, 64,
   71, 72, 73, 74, 89, 99, 104], [20, 32, 62, 63, 72, 73, 74, 99, 104], [20, 31, 32, 62, 63,
   72, 73, 74, 99, 104], [20], [21, 52], [21, 52], [21], [21], [26], [27], [28], [29], [30],
   [31], [31], [32], [33, 34, 75], [33], [34], [35], [39], [45], [45], [45], [46, 58], [46,
   58], [46, 58], [48, 59, 116], [48, 59, 96, 97, 98, 116], [48, 59, 60, 96, 97, 98, 116],
   [48, 59, 60, 96, 97, 98, 116], [49, 50], [49], [50], [52], [52], [57], [58, 108], [59],
   [61, 86, 106], [61, 86, 106], [61], [62], [63], [64, 66, 67, 68, 71, 89], [64], [65], [66],
   [67], [68], [71], [72], [73], [74], [75], [76, 115], [76, 115], [76], [76], [77], [81],
   [86], [86], [89], [90], [91], [99], [100], [101], [103], [103], [104], [105], [106], [107],
   [112], [113], [115], [116], [117, 131], [117, 131], [117], [118], [123], [128], [129],
   [130], [131], [132]]

/-- The right-hand sides of the rules (src/stl_parser.ypp:151-522), by symbol number. -/
def rhs : List (List ℕ) :=
  [[], [69, 0], [30], [31], [30], [31], [34, 3, 16, 4], [44], [43], [5, 49, 6], [45], [23, 5,
   49, 6], [46], [48, 22, 45], [47], [48, 20, 45], [48, 21, 45], [48], [49, 51, 49], [7], [9],
   [3, 42, 17, 42, 4], [3, 42, 42, 4], [50], [8, 53], [53, 10, 53], [53, 11, 53], [53, 12,
   53], [14, 52, 53], [13, 52, 53], [53, 15, 52, 53], [5, 53, 6], [32], [33, 19, 53], [26, 33,
   37, 36], [26, 33, 37, 36, 17, 30, 17, 56], [27], [28], [31, 38, 30], [33, 38, 30], [57],
   [58, 17, 57], [24, 58], [31, 38, 30], [33, 38, 30], [60], [61, 17, 60], [], [5, 61, 6],
   [33], [34], [63], [64, 17, 63], [25, 64], [33, 62, 39, 53, 17, 36, 17, 36, 17, 56, 40],
   [35, 62], [67, 66], [66], [55, 39, 67, 40], [54], [68], [59], [65], [69, 54], [69, 68],
   [69, 59]]

/-- A weight for every symbol, so that each rule with a non-empty right-hand side lowers the
weight of the stack. -/
def weight : List ℕ :=
  [1, 1, 1, 1, 1, 4, 1, 2, 1, 2, 1, 1, 1, 1, 1, 1, 1, 1, 1, 1, 1, 1, 1, 1, 2, 2, 1, 2, 2, 1,
   7, 7, 2, 3, 4, 2, 1, 1, 1, 1, 1, 1, 1, 6, 6, 5, 4, 3, 2, 1, 2, 1, 1, 1, 2, 1, 1, 2, 1, 2,
   2, 1, 1, 2, 1, 2, 2, 1, 2, 1]

/-- `s` can lie directly on `t`. -/
def Edge (t s : ℕ) : Prop := t ∈ below.getD s []

instance (t s : ℕ) : Decidable (Edge t s) := inferInstanceAs (Decidable (_ ∈ _))

/-- The state reached from `s` by shifting symbol `a`, if any. -/
def shiftTo (s a : ℕ) : Option ℕ :=
  let n := yyPact.getD s 0
  if n = pactNinf then none
  else
    let i := n + (a : ℤ)
    if i < 0 ∨ yyLast < i ∨ yyCheck.getD i.toNat (-1) ≠ (a : ℤ) then none
    else some (yyTable.getD i.toNat 0)

def checkShift (s a : ℕ) : Bool :=
  match shiftTo s a with
  | none => true
  | some t => decide (Edge s t) && t != 0 && decide (t < 134) && yyStos.getD t 0 == a &&
    (a != 0 || t == 22)

theorem check_shift : ((List.range 134).all fun s => (List.range 41).all fun a =>
    checkShift s a) = true := by
  decide +kernel

/-- States that can lie `n` below one of `S`. -/
def down : ℕ → List ℕ → List ℕ
  | 0, S => S
  | n + 1, S => down n ((S.flatMap fun s => below.getD s []).eraseDups)

/-- Popping the symbols `syms` (last first) from a stack whose top is in `S`. -/
def popCheck : List ℕ → List ℕ → Bool
  | [], _ => true
  | a :: syms, S => S.all (fun s => yyStos.getD s 0 == a && s != 0) &&
    popCheck syms ((S.flatMap fun s => below.getD s []).eraseDups)

def checkReduce (s : ℕ) : Bool :=
  let r := yyDefact.getD s 0
  if r == 0 || s == 22 then true
  else
    decide (2 ≤ r) && decide (r ≤ 65) && (rhs.getD r []).length == yyR2.getD r 0 &&
      popCheck (rhs.getD r []).reverse [s] &&
      (down (rhs.getD r []).length [s]).all fun t =>
        let g := goto t (yyR1.getD r 0)
        decide (Edge t g) && decide (g < 134) && g != 22 && g != 49 && g != 50 && g != 15 &&
          g != 2 && g != 29 && g != 0 &&
          yyStos.getD g 0 == yyR1.getD r 0

theorem check_reduce : ((List.range 134).all fun s => checkReduce s) = true := by
  decide +kernel

/-- Rule 47 (nothing) is only used on the states 49 and 50; every other rule is lowered by
`weight`. -/
theorem check_weight : ((List.range 134).all fun s =>
    let r := yyDefact.getD s 0
    r == 0 || s == 22 || (r == 47 && (s == 49 || s == 50)) ||
      (r != 47 && decide (weight.getD (yyR1.getD r 0) 0 <
        ((rhs.getD r []).map fun a => weight.getD a 0).sum))) = true := by
  decide +kernel

theorem weight_le : (weight.all fun w => decide (w ≤ 7)) = true := by decide +kernel

end Parse
end STLRom
