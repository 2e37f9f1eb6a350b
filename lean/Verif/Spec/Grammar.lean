import Verif.Spec.Fml

/-!
# How a formula may be written

An unambiguous grammar for texts with any choice of parentheses. It says how operators bind:

* `ev_`, `alw_` take the smallest formula to their right;
* `until_` groups to the left and takes the smallest formula to its right;
* `and` groups to the left and is looser than everything else;
* `or` and `=>` are at one level and group to the right;
* `not` takes a formula joined by `until_`, or one followed by `=>` and all that belongs to the
  right of that; it does not take an `or` or `and`;
* `+`, `-`, `*` are at one level and group to the left; `abs(...)` can only come first.
-/

namespace STLRom
namespace Spec

/-- Operators. -/
inductive Key where
  | ev
  | alw
  | untl
  | and
  | or
  | implies
  | not
  | less
  | greater
  deriving DecidableEq

/-- The spellings of an operator. -/
def Key.spell : Key → List String
  | ev => ["ev_", "ev", "F", "F_", "<>", "<>_"]
  | alw => ["alw_", "alw", "G", "G_", "[]", "[]_"]
  | untl => ["until_", "until", "U", "U_"]
  | and => ["and", "&"]
  | or => ["or", "|"]
  | implies => ["=>", "->"]
  | not => ["not", "!"]
  | less => ["<", "<="]
  | greater => [">", ">="]

/-- The word `w` spells `k`. -/
def Key.Is (k : Key) (w : List Char) : Prop := ∃ s ∈ k.spell, w = s.toList

/-- How signal expressions are written; with `true` those that can be the right operand. -/
inductive ReadsS : Bool → SExp → List (List Char) → Prop where
  | num (n : Num) : ReadsS true (.num n) [n.word]
  | sig (x : String) : ReadsS true (.sig x) [x.toList, ['['], ['t'], [']']]
  | paren {e ws} : ReadsS false e ws → ReadsS true e (['('] :: (ws ++ [[')']]))
  | single {e ws} : ReadsS true e ws → ReadsS false e ws
  | abs {e ws} : ReadsS false e ws → ReadsS false (.abs e) ("abs".toList :: ['('] :: (ws ++ [[')']]))
  | add {a b u v} : ReadsS false a u → ReadsS true b v → ReadsS false (.add a b) (u ++ ['+'] :: v)
  | sub {a b u v} : ReadsS false a u → ReadsS true b v → ReadsS false (.sub a b) (u ++ ['-'] :: v)
  | mul {a b u v} : ReadsS false a u → ReadsS true b v → ReadsS false (.mul a b) (u ++ ['*'] :: v)

/-- How intervals are written: the comma may be missing. -/
inductive ReadsI (a b : Num) : List (List Char) → Prop where
  | comma : ReadsI a b [['['], a.word, [','], b.word, [']']]
  | plain : ReadsI a b [['['], a.word, b.word, [']']]

/-- Categories of formulas. -/
inductive Cat where
  /-- complete at its last word -/
  | prim
  /-- `not`, after any number of `ev_`, `alw_`; can be followed by `or` or `and` -/
  | preOr
  /-- the same; can be followed by `and` only -/
  | preAnd
  /-- joined by `until_` -/
  | unt
  /-- joined by `until_`, the last being `preOr` -/
  | notOr
  /-- joined by `until_`, the last being `preAnd` -/
  | notAnd
  /-- joined by `or` and `=>` -/
  | chain
  /-- joined by `and` -/
  | all
  deriving DecidableEq

/-- The category of an `until_` by that of its right operand. -/
def Cat.join : Cat → Cat
  | preOr => notOr
  | preAnd => notAnd
  | _ => unt

/-- How formulas are written. -/
inductive ReadsF : Cat → Fml → List (List Char) → Prop where
  | less {a b u v w} : ReadsS false a u → Key.less.Is w → ReadsS false b v →
      ReadsF .prim (.less a b) (u ++ w :: v)
  | greater {a b u v w} : ReadsS false a u → Key.greater.Is w → ReadsS false b v →
      ReadsF .prim (.greater a b) (u ++ w :: v)
  | ref (s : String) : ReadsF .prim (.ref s) [s.toList]
  | paren {f ws} : ReadsF .all f ws → ReadsF .prim f (['('] :: (ws ++ [[')']]))
  | ev {k a b f w i ws} : k = .prim ∨ k = .preOr ∨ k = .preAnd → Key.ev.Is w → ReadsI a b i →
      ReadsF k f ws → ReadsF k (.ev a b f) (w :: (i ++ ws))
  | alw {k a b f w i ws} : k = .prim ∨ k = .preOr ∨ k = .preAnd → Key.alw.Is w → ReadsI a b i →
      ReadsF k f ws → ReadsF k (.alw a b f) (w :: (i ++ ws))
  | not {k f w ws} : k = .unt ∨ k = .notOr → Key.not.Is w → ReadsF k f ws →
      ReadsF .preOr (.not f) (w :: ws)
  | notAnd {f w ws} : Key.not.Is w → ReadsF .notAnd f ws → ReadsF .preAnd (.not f) (w :: ws)
  | notImplies {f g w u x v} : Key.not.Is w → ReadsF .unt f u → Key.implies.Is x →
      ReadsF .chain g v → ReadsF .preAnd (.not (.implies f g)) (w :: (u ++ x :: v))
  | one {k f ws} : k = .prim ∨ k = .preOr ∨ k = .preAnd → ReadsF k f ws → ReadsF k.join f ws
  | untl {k f a b g u w i v} : k = .prim ∨ k = .preOr ∨ k = .preAnd → ReadsF .unt f u →
      Key.untl.Is w → ReadsI a b i → ReadsF k g v → ReadsF k.join (.untl f a b g) (u ++ w :: (i ++ v))
  | chain {k f ws} : k = .unt ∨ k = .notOr ∨ k = .notAnd → ReadsF k f ws → ReadsF .chain f ws
  | or {k f g u w v} : k = .unt ∨ k = .notOr → ReadsF k f u → Key.or.Is w → ReadsF .chain g v →
      ReadsF .chain (.or f g) (u ++ w :: v)
  | implies {f g u w v} : ReadsF .unt f u → Key.implies.Is w → ReadsF .chain g v →
      ReadsF .chain (.implies f g) (u ++ w :: v)
  | all {f ws} : ReadsF .chain f ws → ReadsF .all f ws
  | and {f g u w v} : ReadsF .all f u → Key.and.Is w → ReadsF .chain g v →
      ReadsF .all (.and f g) (u ++ w :: v)

end Spec
end STLRom
