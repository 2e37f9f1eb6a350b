import Verif.Proofs.Regex
import Verif.Model.Scanner

/-!
# The tables of the scanner against the residuals of the rules

Every state of the automaton is matched with the residuals of the rules by a word leading to
it.  The finite check that transitions and accepting rules agree is done here by evaluation;
`Verif.Proofs.Scanner` lifts it to all texts.
-/

namespace STLRom
namespace Scan
open Spec Spec.Re

/-- Rules with their numbers. -/
abbrev Vec := List (ℕ × Re)

def startVec : Vec := (lexRules.zipIdx 1).map fun p => (p.2, p.1)

/-- Residuals by a byte; dead rules are dropped. -/
def dv (b : ℕ) (V : Vec) : Vec :=
  (V.map fun p => (p.1, deriv b p.2)).filter fun p => p.2 ≠ .empty

/-- For every state, bytes leading to it from the start state. -/
def access : List (List ℕ) :=
  [[0, 0, 0, 0], [], [0, 0, 0, 0], [0, 0, 0, 0], [0], [9], [10], [33], [34], [35], [38], [40],
   [41], [42], [43], [44], [45], [46], [48], [58], [60], [61], [62], [65], [91], [93], [124],
   [9, 9], [34, 0], [34, 34], [34, 92], [35, 0], [35, 10], [43, 46], [43, 48], [45, 62], [46, 48],
   [58, 61], [60, 61], [60, 62], [61, 62], [62, 61], [65, 48], [91, 93], [60, 62, 95],
   [91, 93, 95], [0, 0, 0, 0]]

def vecs : List Vec := access.map fun w => w.foldl (fun V b => dv b V) startVec

def vec (s : ℕ) : Vec := vecs.getD s []

/-- The states the automaton can be in while it runs. -/
def live (s : ℕ) : Bool := s == 1 || (decide (4 ≤ s) && decide (s ≤ 45))

/-- The first rule accepting now. -/
def ruleNow (V : Vec) : ℕ := ((V.find? fun p => nullable p.2).map (·.1)).getD 0

def checkState (V : Vec) (s : ℕ) : Bool :=
  (List.range 256).all fun b =>
    let n := next s (cls b)
    if n == jam then dv b V == [] else live n && dv b V == vec n

set_option maxRecDepth 10000 in
theorem check_steps : ((List.range 46).all fun s => !live s || checkState (vec s) s) = true := by
  decide +kernel

theorem check_accept : ((List.range 46).all fun s =>
    !live s || yyAccept.getD s 0 == ruleNow (vec s)) = true := by
  decide +kernel

/-- The rules are listed by increasing number, from 1, without dead ones. -/
def sortedVec (V : Vec) : Bool :=
  decide (V.Pairwise fun p q => p.1 < q.1) && V.all fun p => decide (0 < p.1)

theorem check_sorted : ((List.range 46).all fun s => !live s || sortedVec (vec s)) = true := by
  decide +kernel

theorem vec_one : vec 1 = startVec := by decide +kernel

end Scan
end STLRom
