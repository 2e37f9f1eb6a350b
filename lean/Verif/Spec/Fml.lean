import Verif.Model.Driver

/-!
# Formulas as one writes them

Trees of formulas with names and decimal literals, their words with every compound in
parentheses, and the nodes they stand for.
-/

namespace STLRom
namespace Spec

/-- A decimal literal: an optional minus sign, digits, and digits after a point if there are
any. -/
structure Lit where
  neg : Bool
  whole : List (Fin 10)
  frac : List (Fin 10)
  deriving DecidableEq

namespace Lit

/-- The characters of digits. -/
def chars (ds : List (Fin 10)) : List Char := ds.map fun d => Char.ofNat (48 + d.val)

/-- The text of a literal. -/
def word (l : Lit) : List Char :=
  (if l.neg then ['-'] else []) ++ chars l.whole ++ if l.frac = [] then [] else '.' :: chars l.frac

/-- The number digits write. -/
def nat (ds : List (Fin 10)) : ℕ := ds.foldl (fun n d => 10 * n + d.val) 0

/-- The value of a literal. -/
def value (l : Lit) : ℚ :=
  (if l.neg then -1 else 1) * ((nat l.whole : ℚ) + (nat l.frac : ℚ) / 10 ^ l.frac.length)

end Lit

/-- A bound of an interval, or a number in an expression: a literal or a parameter. -/
inductive Num where
  | lit (l : Lit)
  | par (p : String)

/-- Signal expressions. -/
inductive SExp where
  | num (n : Num)
  | sig (x : String)
  | abs (e : SExp)
  | add (a b : SExp)
  | sub (a b : SExp)
  | mul (a b : SExp)

/-- Formulas. -/
inductive Fml where
  | less (a b : SExp)
  | greater (a b : SExp)
  | not (f : Fml)
  | and (f g : Fml)
  | or (f g : Fml)
  | implies (f g : Fml)
  | ev (a b : Num) (f : Fml)
  | alw (a b : Num) (f : Fml)
  | untl (f : Fml) (a b : Num) (g : Fml)
  | ref (s : String)

/-! ## Words -/

def Num.word : Num → List Char
  | lit l => l.word
  | par p => p.toList

/-- The words of an expression; every compound stands in parentheses. -/
def SExp.words : SExp → List (List Char)
  | num n => [n.word]
  | sig x => [x.toList, ['['], ['t'], [']']]
  | abs e => ['('] :: "abs".toList :: ['('] :: (e.words ++ [[')'], [')']])
  | add a b => ['('] :: (a.words ++ ['+'] :: (b.words ++ [[')']]))
  | sub a b => ['('] :: (a.words ++ ['-'] :: (b.words ++ [[')']]))
  | mul a b => ['('] :: (a.words ++ ['*'] :: (b.words ++ [[')']]))

/-- The words of an interval. -/
def ivalWords (a b : Num) : List (List Char) := [['['], a.word, [','], b.word, [']']]

/-- The words of a formula; every compound stands in parentheses. -/
def Fml.words : Fml → List (List Char)
  | less a b => ['('] :: (a.words ++ ['<'] :: (b.words ++ [[')']]))
  | greater a b => ['('] :: (a.words ++ ['>'] :: (b.words ++ [[')']]))
  | not f => ['('] :: "not".toList :: (f.words ++ [[')']])
  | and f g => ['('] :: (f.words ++ "and".toList :: (g.words ++ [[')']]))
  | or f g => ['('] :: (f.words ++ "or".toList :: (g.words ++ [[')']]))
  | implies f g => ['('] :: (f.words ++ "=>".toList :: (g.words ++ [[')']]))
  | ev a b f => ['('] :: "ev_".toList :: (ivalWords a b ++ (f.words ++ [[')']]))
  | alw a b f => ['('] :: "alw_".toList :: (ivalWords a b ++ (f.words ++ [[')']]))
  | untl f a b g => ['('] :: (f.words ++ "until_".toList :: (ivalWords a b ++ (g.words ++ [[')']])))
  | ref s => [s.toList]

/-! ## The nodes they stand for -/

def Num.name : Num → String
  | lit _ => ""
  | par p => p

def Num.value : Num → ℚ
  | lit l => l.value
  | par _ => 0

/-- The nodes of an expression with the signals `m`. -/
def SExp.tree (m : Assoc ℕ) : SExp → Tr
  | num n => .const .init n.name n.value none
  | sig x => .sig .init x m none
  | abs e => .abs .init (e.tree m)
  | add a b => .plus .init (a.tree m) (b.tree m)
  | sub a b => .minus .init (a.tree m) (b.tree m)
  | mul a b => .mult .init (a.tree m) (b.tree m)

/-- The interval from `a` to `b`. -/
def ivalOf (a b : Num) : Ival := ⟨a.value, b.value, a.name, b.name⟩

/-- The nodes of a formula; a name stands for a copy of the formula `fs` has under it. -/
def Fml.tree (m : Assoc ℕ) (fs : String → Tr) : Fml → Tr
  | less a b => .atom .init .less (a.tree m) (b.tree m)
  | greater a b => .atom .init .greater (a.tree m) (b.tree m)
  | not f => .not .init (f.tree m fs)
  | and f g => .and .init (f.tree m fs) (g.tree m fs)
  | or f g => .or .init (f.tree m fs) (g.tree m fs)
  | implies f g => .implies .init (f.tree m fs) (g.tree m fs)
  | ev a b f => .ev .init (ivalOf a b) (f.tree m fs)
  | alw a b f => .alw .init (ivalOf a b) (f.tree m fs)
  | untl f a b g => .untl .init (f.tree m fs) (ivalOf a b) (g.tree m fs)
  | ref s => (fs s).clone

end Spec
end STLRom
