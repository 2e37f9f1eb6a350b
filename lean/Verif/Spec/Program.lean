import Verif.Spec.Grammar

/-!
# Texts with several statements

What the statements of a text are, how they are written, and what they do, in terms of the
calls of the interface.
-/

namespace STLRom
namespace Spec

/-- One test in the braces of a trace test. -/
inductive Item where
  /-- a new test with its formula -/
  | full (id : String) (locals : List (String × Lit)) (f : Fml) (pos neg : List Char) (isErr : Bool)
  /-- a test known already -/
  | again (id : String) (locals : List (String × Lit))

/-- Statements. -/
inductive Stmt where
  /-- `s := f` -/
  | define (s : String) (f : Fml)
  /-- `param p = c, ...` -/
  | params (p : String × Lit) (ps : List (String × Lit))
  /-- `test id : "env", time, visu { ... }` -/
  | tests (id : String) (env : List Char) (opts : Option (Lit × Bool)) (i : Item) (is : List Item)

/-- A text in quotes. -/
def quoted (u : List Char) : List Char := '"' :: u ++ ['"']

/-- The words of a Boolean. -/
def boolWord (b : Bool) : List Char := if b then "true".toList else "false".toList

/-- `p = c` -/
def assignWords (p : String × Lit) : List (List Char) := [p.1.toList, ['='], p.2.word]

/-- `, p = c, ...` -/
def assignRest : List (String × Lit) → List (List Char)
  | [] => []
  | p :: ps => [','] :: (assignWords p ++ assignRest ps)

/-- Local parameters. -/
def localWords : List (String × Lit) → List (List Char)
  | [] => []
  | p :: ps => ['('] :: (assignWords p ++ (assignRest ps ++ [[')']]))

/-- How a test is written. -/
inductive ReadsItem : Item → List (List Char) → Prop where
  | full {id l f pos neg b ws} : ReadsF .all f ws → ReadsItem (.full id l f pos neg b)
      (id.toList :: (localWords l ++ ['{'] :: (ws ++
        [[','], quoted pos, [','], quoted neg, [','], boolWord b, ['}']])))
  | again {id l} : ReadsItem (.again id l) (id.toList :: localWords l)

/-- How tests are written. -/
inductive ReadsItems : List Item → List (List Char) → Prop where
  | nil : ReadsItems [] []
  | cons {i is u v} : ReadsItem i u → ReadsItems is v → ReadsItems (i :: is) (u ++ v)

/-- Simulation time and visualisation. -/
def optWords : Option (Lit × Bool) → List (List Char)
  | none => []
  | some (c, b) => [[','], c.word, [','], boolWord b]

/-- How a statement is written. -/
inductive ReadsStmt : Stmt → List (List Char) → Prop where
  | define {s f ws} : ReadsF .all f ws → ReadsStmt (.define s f) (s.toList :: ":=".toList :: ws)
  | params {p ps} : ReadsStmt (.params p ps) ("param".toList :: (assignWords p ++ assignRest ps))
  | tests {id env o i is u v} : ReadsItem i u → ReadsItems is v → ReadsStmt (.tests id env o i is)
      ("test".toList :: id.toList :: [':'] :: quoted env ::
        (optWords o ++ ['{'] :: (u ++ (v ++ [['}']]))))

/-- How a list of statements is written. -/
inductive ReadsProg : List Stmt → List (List Char) → Prop where
  | nil : ReadsProg [] []
  | cons {s ss u v} : ReadsStmt s u → ReadsProg ss v → ReadsProg (s :: ss) (u ++ v)

/-- The formula a driver has under a name. -/
def formulaOf (d : Driver) (s : String) : Tr := (d.formulas.lookup s).getD (.const .init "" 0 none)

/-- The map of the local parameters. -/
def localMap (l : List (String × Lit)) : Assoc ℚ := l.foldl (fun m p => m.set p.1 p.2.value) []

/-- What a test does. -/
def doItem (d : Driver) : Item → Driver
  | .full id l f pos neg b =>
    d.addStlTest6 id (localMap l) (f.tree d.smap (formulaOf d)) (String.ofList pos) (String.ofList neg) b
  | .again id l => if l = [] then d.addStlTest1 id else d.addStlTest2 id (localMap l)

/-- What a statement does. -/
def doStmt (d : Driver) : Stmt → Driver
  | .define s f => { d with formulas := d.formulas.set s (f.tree d.smap (formulaOf d)) }
  | .params p ps => { d with params := (p :: ps).foldl (fun m p => m.set p.1 p.2.value) d.params }
  | .tests id env o i is =>
    (i :: is).foldl doItem (match o with
      | none => d.addTraceTest id (String.ofList env) 0 false
      | some (c, b) => d.addTraceTest id (String.ofList env) c.value b)

/-! ## Names -/

/-- A letter followed by letters, digits and underscores, but no reserved word. -/
structure Name (s : String) : Prop where
  ident : ∃ c w, s.toList = c :: w ∧ c.isAlpha = true ∧ ∀ e ∈ w, e.isAlphanum = true ∨ e = '_'
  word : s ∉ ["F", "F_", "ev", "ev_", "G", "G_", "alw", "alw_", "U", "U_", "until", "until_", "and",
    "or", "not", "true", "false", "t", "abs", "param", "test", "signal"]

/-- A name the driver does not know. -/
structure Fresh (d : Driver) (s : String) : Prop extends Name s where
  formula : d.formulas.lookup s = none
  param : d.params.lookup s = none
  signal : d.smap.lookup s = none
  test : d.stlTests.lookup s = none

/-- A name that can be given a value as a parameter. -/
def ParamName (d : Driver) (p : String) : Prop :=
  Fresh d p ∨ Name p ∧ d.formulas.lookup p = none ∧ ∃ x, d.params.lookup p = some x

/-- The driver knows the names of a number. -/
def NumOk (d : Driver) : Num → Prop
  | .lit l => l.whole ++ l.frac ≠ []
  | .par p => Name p ∧ d.formulas.lookup p = none ∧ ∃ x, d.params.lookup p = some x

/-- The driver knows the names of an expression. -/
def SOk (d : Driver) : SExp → Prop
  | .num n => NumOk d n
  | .sig x => Name x ∧ d.formulas.lookup x = none ∧ d.params.lookup x = none ∧
      ∃ i, d.smap.lookup x = some (i + 1)
  | .abs e => SOk d e
  | .add a b => SOk d a ∧ SOk d b
  | .sub a b => SOk d a ∧ SOk d b
  | .mul a b => SOk d a ∧ SOk d b

/-- The driver knows the names of a formula. -/
def FOk (d : Driver) : Fml → Prop
  | .less a b => SOk d a ∧ SOk d b
  | .greater a b => SOk d a ∧ SOk d b
  | .not f => FOk d f
  | .and f g => FOk d f ∧ FOk d g
  | .or f g => FOk d f ∧ FOk d g
  | .implies f g => FOk d f ∧ FOk d g
  | .ev a b f => NumOk d a ∧ NumOk d b ∧ FOk d f
  | .alw a b f => NumOk d a ∧ NumOk d b ∧ FOk d f
  | .untl f a b g => NumOk d a ∧ NumOk d b ∧ FOk d f ∧ FOk d g
  | .ref s => Name s ∧ ∃ T, d.formulas.lookup s = some T

/-- Parameters that can be set one after the other. -/
def AssignOk (d : Driver) (l : List (String × Lit)) : Prop :=
  ∀ p ∈ l, ParamName d p.1 ∧ p.2.whole ++ p.2.frac ≠ []

/-- A text that can stand in quotes. -/
def QuoteOk (u : List Char) : Prop := ∀ c ∈ u, c ≠ '"' ∧ c ≠ '\\'

/-- A test that makes sense for the driver. -/
def ItemOk (d : Driver) : Item → Prop
  | .full id l f pos neg _ => Fresh d id ∧ AssignOk d l ∧ FOk d f ∧ QuoteOk pos ∧ QuoteOk neg
  | .again id l => Name id ∧ d.formulas.lookup id = none ∧ d.params.lookup id = none ∧
      d.smap.lookup id = none ∧ (∃ T, d.stlTests.lookup id = some T) ∧ AssignOk d l

/-- Tests that make sense one after the other. -/
def ItemsOk (d : Driver) : List Item → Prop
  | [] => True
  | i :: is => ItemOk d i ∧ ItemsOk (doItem d i) is

/-- A statement that makes sense for the driver; `d₀` is the driver before the definition that
came before, if there was one: the name to be defined is looked up in it. -/
def StmtOk (d₀ d : Driver) : Stmt → Prop
  | .define s f => Fresh d₀ s ∧ FOk d f
  | .params p ps => AssignOk d (p :: ps)
  | .tests id env o i is => Fresh d id ∧ QuoteOk env ∧ (∀ c ∈ o, c.1.whole ++ c.1.frac ≠ []) ∧
      ItemsOk (match o with
        | none => d.addTraceTest id (String.ofList env) 0 false
        | some (c, b) => d.addTraceTest id (String.ofList env) c.value b) (i :: is)

/-- The driver in which the word after a statement is looked up. -/
def lookDrv (d : Driver) : Stmt → Driver
  | .define _ _ => d
  | s => doStmt d s

/-- Statements that make sense one after the other. -/
def ProgOk (d₀ d : Driver) : List Stmt → Prop
  | [] => True
  | s :: ss => StmtOk d₀ d s ∧ ProgOk (lookDrv d s) (doStmt d s) ss

end Spec
end STLRom
