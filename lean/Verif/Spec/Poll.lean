import Mathlib.Data.Rat.Defs
import Mathlib.Data.List.Basic

/-!
# A first-in-first-out queue of trace tests
-/

namespace STLRom
namespace Spec

/-- What a caller does with the queue, without the formulas. -/
inductive QAct where
  /-- `add_trace_test`. -/
  | opens (id env : String) (simTime : ℚ) (visu : Bool)
  /-- `add_stl_test` with a name only, or with a name and local parameters. -/
  | again (id : String)
  /-- `add_stl_test` with a formula. -/
  | defines (id : String)
  /-- `run_tests`, `run_next_trace_test` or `pop_next_trace_test`. -/
  | closes

/-- An open trace test: what was given to `add_trace_test`, and the names of its tests. -/
structure Open where
  id : String
  env : String
  simTime : ℚ
  visu : Bool
  tests : List String
  deriving DecidableEq, Repr

/-- The open trace tests, oldest first, and the names of the tests that have been defined. -/
structure Fifo where
  opened : List Open
  known : List String

/-- A test joins the youngest open trace test. -/
def Fifo.join (i : String) : List Open → List Open
  | [] => []
  | [o] => [{ o with tests := o.tests ++ [i] }]
  | o :: p :: os => o :: Fifo.join i (p :: os)

/-- One action. -/
def Fifo.act (f : Fifo) : QAct → Fifo
  | .opens i e s v => { f with opened := f.opened ++ [⟨i, e, s, v, []⟩] }
  | .again i => if i ∈ f.known then { f with opened := Fifo.join i f.opened } else f
  | .defines i => if f.opened = [] then f else ⟨Fifo.join i f.opened, i :: f.known⟩
  | .closes => { f with opened := f.opened.tail }

/-- The state after a sequence of actions. -/
def Fifo.after (acts : List QAct) : Fifo := acts.foldl Fifo.act ⟨[], []⟩

end Spec
end STLRom
