import Verif.Spec.Sci

/-!
# Trace files

Lines of numbers with blanks between them.
-/

namespace STLRom
namespace Spec

/-- White space inside a line. -/
def LineBlank (c : Char) : Prop := c = ' ' ∨ c = '\t' ∨ c = '\r' ∨ c = '\x0b' ∨ c = '\x0c'

/-- A line: numbers, each with the white space before it, and the white space at the end. -/
structure Line where
  nums : List (List Char × Sci)
  trail : List Char

namespace Line

/-- The text of a line, without the line break. -/
def text (l : Line) : List Char := l.nums.flatMap (fun q => q.1 ++ q.2.word) ++ l.trail

/-- The numbers of a line. -/
def values (l : Line) : List ℚ := l.nums.map (·.2.value)

/-- There is a number, white space is white space, and there is some between two numbers. -/
structure Ok (l : Line) : Prop where
  ne : l.nums ≠ []
  ok : ∀ q ∈ l.nums, q.2.Ok
  blank : ∀ q ∈ l.nums, ∀ c ∈ q.1, LineBlank c
  sep : ∀ q ∈ l.nums.tail, q.1 ≠ []
  trail : ∀ c ∈ l.trail, LineBlank c

end Line

/-- A file of lines, each with its line break. -/
def fileText (L : List Line) : List Char := L.flatMap fun l => l.text ++ ['\n']

end Spec
end STLRom
