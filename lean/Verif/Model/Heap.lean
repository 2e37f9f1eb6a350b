import Verif.Model.Parser

/-!
# Who owns which formula

Model of the memory side of `include/transducer.h`, `include/signal_expr.h`,
`include/stl_driver.h`, `include/stl_monitor.h`, `src/stl_driver.cpp` and the parser's actions:
which formula nodes are allocated, copied and deleted, and which pointers are kept where.

A formula is the tree of the addresses of its nodes and intervals.  Addresses are never reused,
so that a second `delete` shows; reading or deleting an address that is not allocated is `none`.
Strings, parameter maps and containers are not followed.
-/

namespace STLRom
namespace Mem
open Parse

abbrev Addr := ℕ

/-- A formula in memory: nodes without children, with one child, with one child and an interval,
with two children, with two children and an interval (include/transducer.h:118-243,
include/signal_expr.h:20-150). -/
inductive Obj where
  | leaf (a : Addr)
  | un (a : Addr) (c : Obj)
  | tun (a i : Addr) (c : Obj)
  | bin (a : Addr) (l r : Obj)
  | tbin (a i : Addr) (l r : Obj)
  deriving DecidableEq, Repr

/-- The addresses below `next` have been allocated, those in `freed` released again. -/
structure Heap where
  next : Addr
  freed : List Addr
  deriving DecidableEq, Repr

/-- `new`. -/
def Heap.new (h : Heap) : Addr × Heap := (h.next, { h with next := h.next + 1 })

/-- An access to an object: it must be allocated. -/
def Heap.read (h : Heap) (a : Addr) : Option Unit :=
  if a < h.next ∧ a ∉ h.freed then some () else none

/-- `delete` of one object. -/
def Heap.free (h : Heap) (a : Addr) : Option Heap :=
  if a < h.next ∧ a ∉ h.freed then some { h with freed := a :: h.freed } else none

/-- The virtual destructors (include/transducer.h:43, 127-129, 167-170, 205-207, 239-241; the
derived ones are empty): the interval first, then the children, then the node. -/
def del : Obj → Heap → Option Heap
  | .leaf a, h => h.free a
  | .un a c, h => do
    h.read a
    let h ← del c h
    h.free a
  | .tun a i c, h => do
    h.read a
    let h ← h.free i
    let h ← del c h
    h.free a
  | .bin a l r, h => do
    h.read a
    let h ← del l h
    let h ← del r h
    h.free a
  | .tbin a i l r, h => do
    h.read a
    let h ← h.free i
    let h ← del l h
    let h ← del r h
    h.free a

/-- Deleting one formula after the other. -/
def delAll : List Obj → Heap → Option Heap
  | [], h => some h
  | o :: l, h => do
    let h ← del o h
    delAll l h

/-- `clone` (include/transducer.h:253-256, 287-291, 324-328, 361-366, 399-403, 435-439, 469-474,
531-535, include/signal_expr.h:36-46, 105-109, 155-159, 189-194, 219-224, 249-254): the children
first, then the interval, then the node. -/
def clone : Obj → Heap → Option (Obj × Heap)
  | .leaf a, h => do
    h.read a
    let (a', h) := h.new
    some (.leaf a', h)
  | .un a c, h => do
    h.read a
    let (c', h) ← clone c h
    let (a', h) := h.new
    some (.un a' c', h)
  | .tun a i c, h => do
    h.read a
    let (c', h) ← clone c h
    h.read i
    let (i', h) := h.new
    let (a', h) := h.new
    some (.tun a' i' c', h)
  | .bin a l r, h => do
    h.read a
    let (l', h) ← clone l h
    let (r', h) ← clone r h
    let (a', h) := h.new
    some (.bin a' l' r', h)
  | .tbin a i l r, h => do
    h.read a
    let (l', h) ← clone l h
    let (r', h) ← clone r h
    h.read i
    let (i', h) := h.new
    let (a', h) := h.new
    some (.tbin a' i' l' r', h)

/-- Cloning the values of a map (src/stl_driver.cpp:71-74, 104-107). -/
def cloneMap : Assoc Obj → Heap → Option (Assoc Obj × Heap)
  | [], h => some ([], h)
  | (s, o) :: l, h => do
    let (o', h) ← clone o h
    let (l', h) ← cloneMap l h
    some ((s, o') :: l', h)

/-- A call that visits every node of a formula, such as `set_param` or `compute_robustness`. -/
def visit : Obj → Heap → Option Unit
  | .leaf a, h => h.read a
  | .un a c, h => do
    h.read a
    visit c h
  | .tun a i c, h => do
    h.read a
    h.read i
    visit c h
  | .bin a l r, h => do
    h.read a
    visit l h
    visit r h
  | .tbin a i l r, h => do
    h.read a
    h.read i
    visit l h
    visit r h

def visitAll : List Obj → Heap → Option Unit
  | [], _ => some ()
  | o :: l, h => do
    visit o h
    visitAll l h

/-! ## Drivers -/

/-- The formula pointers a driver keeps: in `formula_map`, in the entries of `stl_test_map`, and
in the tests of the elements of `trace_test_queue` (include/stl_driver.h:16-54, 92-99). -/
structure Own where
  formulas : Assoc Obj
  tests : Assoc Obj
  queue : List (List Obj)
  deriving DecidableEq, Repr

def Own.init : Own := ⟨[], [], []⟩

/-- `trace_test_queue.back().tests.push_back`. -/
def pushObj (q : List (List Obj)) (o : Obj) : List (List Obj) :=
  match q.getLast? with
  | none => q
  | some b => q.dropLast ++ [b ++ [o]]

/-- `add_trace_test` (src/stl_driver.cpp:361-369): a new element without tests. -/
def addTrace (w : Own) : Own := { w with queue := w.queue ++ [[]] }

/-- The one- and two-argument `add_stl_test` (src/stl_driver.cpp:395-433): the pushed copy of the
entry gets a clone of its formula. -/
def addAgain (id : String) (h : Heap) (w : Own) : Option (Heap × Own) :=
  if w.queue = [] then some (h, w)
  else
    match w.tests.lookup id with
    | none => some (h, w)
    | some o => do
      let (o', h) ← clone o h
      some (h, { w with queue := pushObj w.queue o' })

/-- The six-argument `add_stl_test` (src/stl_driver.cpp:435-459).  The first clone is deleted
with the temporary it was made for; the pointer the entry held before is overwritten; the entry
and the element of the queue get a clone each. -/
def addFull (id : String) (f : Obj) (h : Heap) (w : Own) : Option (Heap × Own) :=
  if w.queue = [] then some (h, w)
  else do
    let (o₁, h) ← clone f h
    let h ← del o₁ h
    let (o₂, h) ← clone f h
    let (o₃, h) ← clone f h
    some (h, { w with tests := w.tests.set id o₂, queue := pushObj w.queue o₃ })

/-- The loops of `clear` over one element of the queue (src/stl_driver.cpp:224-231): the formula
of the first test is deleted, then `pop_front` destroys the test, whose destructor
(include/stl_driver.h:41-44) deletes the formula. -/
def clearTests : List Obj → Heap → Option Heap
  | [], h => some h
  | o :: l, h => do
    let h ← del o h
    let h ← del o h
    clearTests l h

def clearQueue : List (List Obj) → Heap → Option Heap
  | [], h => some h
  | l :: q, h => do
    let h ← clearTests l h
    clearQueue q h

/-- `STLDriver::clear` (src/stl_driver.cpp:197-239): the formulas and the formulas of the test
entries are deleted and set to null, the maps emptied, then the queue. -/
def clear (h : Heap) (w : Own) : Option (Heap × Own) := do
  let h ← delAll (w.formulas.map (·.2)) h
  let h ← delAll (w.tests.map (·.2)) h
  let h ← clearQueue w.queue h
  some (h, Own.init)

/-- `STLDriver::run_tests` (src/stl_driver.cpp:303-359) on the first element of the queue: every
test's formula is evaluated and then deleted by the destructor of the test. -/
def runFront : List Obj → Heap → Option Heap
  | [], h => some h
  | o :: l, h => do
    visit o h
    let h ← del o h
    runFront l h

/-- `pop_next_trace_test` (include/stl_driver.h:294-298): the element of the queue is destroyed
with its tests. -/
def popTrace (h : Heap) (w : Own) : Option (Heap × Own) :=
  match w.queue with
  | [] => some (h, w)
  | l :: q => do
    let h ← delAll l h
    some (h, { w with queue := q })

/-- `~STLDriver` (src/stl_driver.cpp:45-51), followed by the destructors of the members: the
queue, the test entries (each `~stl_test` deletes its formula). -/
def destroy (h : Heap) (w : Own) : Option Heap := do
  let h ← delAll (w.formulas.map (·.2)) h
  let h ← delAll w.queue.flatten h
  delAll (w.tests.map (·.2)) h

/-- The copy constructor (src/stl_driver.cpp:53-75): the test entries and the queue are copied
member by member, with their pointers; the formulas are cloned. -/
def copyNew (h : Heap) (w : Own) : Option (Heap × Own) := do
  let (fs, h) ← cloneMap w.formulas h
  some (h, { w with formulas := fs })

/-- Copy assignment of `deque<stl_test>`: the common elements are assigned member by member,
which overwrites pointers, and the others are destroyed or copied. -/
def assignTests (l l' : List Obj) (h : Heap) : Option Heap := delAll (l.drop l'.length) h

/-- Copy assignment of `deque<trace_test>`. -/
def assignQueue : List (List Obj) → List (List Obj) → Heap → Option Heap
  | q, [], h => delAll q.flatten h
  | [], _, h => some h
  | l :: q, l' :: q', h => do
    let h ← assignTests l l' h
    assignQueue q q' h

/-- Copy assignment of drivers (src/stl_driver.cpp:77-109) `w = w'`. -/
def assign (h : Heap) (w w' : Own) : Option (Heap × Own) := do
  let h ← delAll (w.tests.map (·.2)) h
  let h ← assignQueue w.queue w'.queue h
  let h ← delAll (w.formulas.map (·.2)) h
  let (fs, h) ← cloneMap w'.formulas h
  some (h, { w' with formulas := fs })

/-- Move assignment of drivers (src/stl_driver.cpp:121-148): the target's entries, queue and
formulas are destroyed, the source's pointers taken over. -/
def moveAssign (h : Heap) (w : Own) : Option Heap := do
  let h ← delAll (w.tests.map (·.2)) h
  let h ← delAll w.queue.flatten h
  delAll (w.formulas.map (·.2)) h

/-! ## Parsing -/

/-- The values on the parser's stack that own memory (src/stl_parser.ypp:60-70). -/
inductive HVal where
  | none
  | obj (o : Obj)
  | ival (a : Addr)
  deriving DecidableEq, Repr

/-- A node with one child (two children, one child and an interval, ...) made by `new`. -/
def newLeaf (h : Heap) : Heap × HVal := (h.new.2, .obj (.leaf h.new.1))
def newUn (c : Obj) (h : Heap) : Heap × HVal := (h.new.2, .obj (.un h.new.1 c))
def newTun (i : Addr) (c : Obj) (h : Heap) : Heap × HVal := (h.new.2, .obj (.tun h.new.1 i c))
def newBin (l r : Obj) (h : Heap) : Heap × HVal := (h.new.2, .obj (.bin h.new.1 l r))
def newTbin (i : Addr) (l r : Obj) (h : Heap) : Heap × HVal :=
  (h.new.2, .obj (.tbin h.new.1 i l r))
def newIval (h : Heap) : Heap × HVal := (h.new.2, .ival h.new.1)

/-- What a finished action leaves: the memory, the driver's pointers and `$$`. -/
def done (w : Own) (r : Heap × HVal) : Option (Heap × Own × HVal) := some (r.1, w, r.2)

/-! The actions (src/stl_parser.cpp:768-1266) by what they do with formulas.  `none`: an access to
memory that is not allocated, or a value of the wrong kind. -/

/-- Rules 9, 31, 48 (src/stl_parser.cpp:841, 1067, 1218): `$$ = $2`. -/
def hSecond (hargs : List HVal) (h : Heap) (w : Own) : Option (Heap × Own × HVal) :=
  match hargs with
  | [_, v, _] => done w (h, v)
  | _ => none

/-- Rule 24 (`not`). -/
def hNot (hargs : List HVal) (h : Heap) (w : Own) : Option (Heap × Own × HVal) :=
  match hargs with
  | [_, .obj c] => done w (newUn c h)
  | _ => none

/-- Rule 11 (`abs`). -/
def hAbs (hargs : List HVal) (h : Heap) (w : Own) : Option (Heap × Own × HVal) :=
  match hargs with
  | [_, _, .obj c, _] => done w (newUn c h)
  | _ => none

/-- Rules 13, 15, 16 (arithmetic), 18 (atoms), 25-27 (`and`, `or`, `=>`). -/
def hBin (hargs : List HVal) (h : Heap) (w : Own) : Option (Heap × Own × HVal) :=
  match hargs with
  | [.obj a, _, .obj b] => done w (newBin a b h)
  | _ => none

/-- Rules 28 and 29 (`ev`, `alw`). -/
def hTun (hargs : List HVal) (h : Heap) (w : Own) : Option (Heap × Own × HVal) :=
  match hargs with
  | [_, .ival i, .obj c] => done w (newTun i c h)
  | _ => none

/-- Rule 30 (`until`). -/
def hTbin (hargs : List HVal) (h : Heap) (w : Own) : Option (Heap × Own × HVal) :=
  match hargs with
  | [.obj a, _, .ival i, .obj b] => done w (newTbin i a b h)
  | _ => none

/-- Rule 32: a reference is a clone. -/
def hRef (args : List SVal) (h : Heap) (w : Own) : Option (Heap × Own × HVal) :=
  match args with
  | [.str s] => do
    let o ← w.formulas.lookup s
    let (o', h) ← clone o h
    done w (h, .obj o')
  | _ => none

/-- Rule 33: the map takes over the pointer; an earlier one is overwritten. -/
def hDefine (args : List SVal) (hargs : List HVal) (h : Heap) (w : Own) :
    Option (Heap × Own × HVal) :=
  match args, hargs with
  | [.str s, _, _], [_, _, .obj o] =>
    done { w with formulas := w.formulas.set s o } (h, .none)
  | _, _ => none

/-- Rule 54: the pointer of the formula itself is dropped. -/
def hFull (args : List SVal) (hargs : List HVal) (h : Heap) (w : Own) :
    Option (Heap × Own × HVal) :=
  match args, hargs with
  | .str id :: _, [_, _, _, .obj f, _, _, _, _, _, _, _] => do
    let (h, w) ← addFull id f h w
    done w (h, .none)
  | _, _ => none

/-- Rule 55. -/
def hAgain (args : List SVal) (h : Heap) (w : Own) : Option (Heap × Own × HVal) :=
  match args with
  | .str id :: _ => do
    let (h, w) ← addAgain id h w
    done w (h, .none)
  | _ => none

/-- Rules without an action copy `$1` (src/stl_parser.cpp:745-754). -/
def hFirst (hargs : List HVal) (h : Heap) (w : Own) : Option (Heap × Own × HVal) :=
  match hargs with
  | v :: _ => done w (h, v)
  | [] => none

/-- The actions that end normally, on the values `$1`, `$2`, ... and what they own. -/
def hact (rule : ℕ) (args : List SVal) (hargs : List HVal) (h : Heap) (w : Own) :
    Option (Heap × Own × HVal) :=
  match rule with
  | 4 | 5 | 6 => done w (newLeaf h)
  | 9 | 31 | 48 => hSecond hargs h w
  | 11 => hAbs hargs h w
  | 24 => hNot hargs h w
  | 13 | 15 | 16 | 18 | 25 | 26 | 27 => hBin hargs h w
  | 21 | 22 => done w (newIval h)
  | 28 | 29 => hTun hargs h w
  | 30 => hTbin hargs h w
  | 32 => hRef args h w
  | 33 => hDefine args hargs h w
  | 34 | 35 => done (addTrace w) (h, .none)
  | 19 | 20 | 36 | 37 | 38 | 39 | 43 | 44 | 46 | 47 | 49 | 50 => done w (h, .none)
  | 54 => hFull args hargs h w
  | 55 => hAgain args h w
  | _ => hFirst hargs h w

/-- The memory during `Parser::parse`: beside the parser's state, one owning value for each
element of its stack. -/
structure HState where
  p : PState
  heap : Heap
  own : Own
  vals : List HVal

/-- `yy_destroy_` (src/stl_parser.cpp:402-530) for a symbol of state `s`: the nonterminals 43-50
and 53 own a formula, 52 an interval. -/
def destroyVal (s : ℕ) (v : HVal) (h : Heap) : Option Heap :=
  match v with
  | .obj o => if yyStos.getD s 0 ∈ [43, 44, 45, 46, 47, 48, 49, 50, 53] then del o h else some h
  | .ival a => if yyStos.getD s 0 = 52 then h.free a else some h
  | .none => some h

/-- The stack is emptied at the end of `parse` (src/stl_parser.cpp:1347-1360, 1376-1392). -/
def cleanup : List (ℕ × SVal) → List HVal → Heap → Option Heap
  | (s, _) :: st, v :: vs, h => do
    let h ← destroyVal s v h
    cleanup st vs h
  | _, _, h => some h

/-- What the next round of the loop does (src/stl_parser.cpp:673-736). -/
inductive Move where
  | accept
  | shift
  | reduce (rule : ℕ)
  | fail

def moveDefault (s : ℕ) : Move := if yyDefact.getD s 0 = 0 then .fail else .reduce (yyDefact.getD s 0)

def moveLook (s : ℕ) (n : ℤ) (la : ℕ) : Move :=
  let i := n + (la : ℤ)
  if i < 0 ∨ yyLast < i ∨ yyCheck.getD i.toNat (-1) ≠ (la : ℤ) then moveDefault s else .shift

def move (p : PState) : Move :=
  match p.stack with
  | [] => .fail
  | (s, _) :: _ =>
    if s = yyFinal then .accept
    else if yyPact.getD s 0 = pactNinf then moveDefault s
    else
      match p.look with
      | some la => moveLook s (yyPact.getD s 0) la.1
      | none => moveLook s (yyPact.getD s 0) (Scan.lex p.drv p.input).1.sym

/-- One round, with memory: another state; the end of `parse`; a memory error. -/
inductive HStep where
  | next (q : HState)
  | stop (b : Bool) (d : Driver) (h : Heap) (w : Own)
  | bad

/-- The end of `parse` with the given stack left. -/
def finish (b : Bool) (d : Driver) (st : List (ℕ × SVal)) (vs : List HVal) (h : Heap) (w : Own) :
    HStep :=
  match cleanup st vs h with
  | some h => .stop b d h w
  | none => .bad

/-- One round of the loop with memory.  When an action raises an error its right-hand side is
dropped without being destroyed (src/stl_parser.cpp:1327-1331); the leaf that rule 6 has
allocated is deleted there (src/stl_parser.cpp:820). -/
def hstep (q : HState) : HStep :=
  match step q.p, move q.p with
  | .next p', .reduce r =>
    match hact r ((q.p.stack.take (yyR2.getD r 0)).map (·.2)).reverse
        (q.vals.take (yyR2.getD r 0)).reverse q.heap q.own with
    | some (h, w, v) => .next ⟨p', h, w, v :: q.vals.drop (yyR2.getD r 0)⟩
    | none => .bad
  | .next p', _ => .next ⟨p', q.heap, q.own, .none :: q.vals⟩
  | .accept d, _ => finish true d q.p.stack q.vals q.heap q.own
  | .abort d, .reduce r =>
    let h := if r = 6 then q.heap.new.2.free q.heap.new.1 else some q.heap
    match h with
    | some h =>
      finish false d (q.p.stack.drop (yyR2.getD r 0)) (q.vals.drop (yyR2.getD r 0)) h q.own
    | none => .bad
  | .abort d, _ => finish false d q.p.stack q.vals q.heap q.own
  | .ub, _ => .bad

/-- `n` rounds. -/
def hrun : ℕ → HState → HStep
  | 0, q => .next q
  | n + 1, q =>
    match hstep q with
    | .next q' => hrun n q'
    | r => r

def hstart (d : Driver) (text : List Char) (h : Heap) (w : Own) : HState :=
  ⟨start d text, h, w, [.none]⟩

/-! ## Programs that use drivers and monitors -/

/-- The memory, and the drivers and monitors a program has made; `none` once destroyed.  A
monitor keeps one formula pointer (include/stl_monitor.h:30). -/
structure World where
  heap : Heap
  drivers : List (Option (Driver × Own))
  monitors : List (Option (Option Obj))

def World.init : World := ⟨⟨0, []⟩, [], []⟩

/-- The calls of the interface that allocate, copy, read or delete formulas. -/
inductive Cmd where
  | newDriver
  | parse (i : ℕ) (text : List Char)
  | addTraceTest (i : ℕ) (id env : String) (simTime : ℚ) (visu : Bool)
  | addStlTest (i : ℕ) (id : String) (locals : Assoc ℚ)
  | runTests (i : ℕ)
  | popTrace (i : ℕ)
  | clear (i : ℕ)
  | setParam (i : ℕ) (name : String) (x : ℚ)
  | online (i : ℕ) (id : String) (t0 : ℚ)
  | copy (i : ℕ)
  | assign (i j : ℕ)
  | move (i : ℕ)
  | moveAssign (i j : ℕ)
  | destroy (i : ℕ)
  | getMonitor (i : ℕ) (id : String)
  | useMonitor (k : ℕ)
  | copyMonitor (k : ℕ)
  | assignMonitor (k l : ℕ)
  | moveMonitor (k : ℕ)
  | destroyMonitor (k : ℕ)

/-- Driver `i` becomes `e` and the memory `h`. -/
def World.putDrv (w : World) (i : ℕ) (h : Heap) (e : Driver × Own) : World :=
  { w with
    heap := h
    drivers := w.drivers.set i (some e) }

/-- A new driver. -/
def World.addDrv (w : World) (h : Heap) (e : Driver × Own) : World :=
  { w with
    heap := h
    drivers := w.drivers ++ [some e] }

def World.putMon (w : World) (k : ℕ) (h : Heap) (e : Option Obj) : World :=
  { w with
    heap := h
    monitors := w.monitors.set k (some e) }

def World.addMon (w : World) (h : Heap) (e : Option Obj) : World :=
  { w with
    heap := h
    monitors := w.monitors ++ [some e] }

/-- Cloning and deleting a pointer that may be null. -/
def cloneOpt : Option Obj → Heap → Option (Option Obj × Heap)
  | none, h => some (none, h)
  | some o, h => (clone o h).map fun r => (some r.1, r.2)

def delOpt : Option Obj → Heap → Option Heap
  | none, h => some h
  | some o, h => del o h

/-- One call: it leads to a new world, or (`none`) accesses or deletes memory that is not
allocated.  Calls on objects that were never made or are destroyed, and calls of `run_tests` that
are undefined or throw for other reasons (`Verif.Model.Driver`), have no outcome here. -/
inductive Does : World → Cmd → Option World → Prop where
  /-- src/stl_driver.cpp:18-29 -/
  | newDriver (w) : Does w .newDriver (some (w.addDrv w.heap (Driver.init, Own.init)))
  | parse {w i d o text n b d' h' o'} : w.drivers[i]? = some (some (d, o)) →
      hrun n (hstart d text w.heap o) = .stop b d' h' o' →
      Does w (.parse i text) (some (w.putDrv i h' (d', o')))
  | parseBad {w i d o text n} : w.drivers[i]? = some (some (d, o)) →
      hrun n (hstart d text w.heap o) = .bad → Does w (.parse i text) none
  | addTraceTest {w i d o id env x b} : w.drivers[i]? = some (some (d, o)) →
      Does w (.addTraceTest i id env x b)
        (some (w.putDrv i w.heap (d.addTraceTest id env x b, addTrace o)))
  | addStlTest {w i d o id m} : w.drivers[i]? = some (some (d, o)) →
      Does w (.addStlTest i id m)
        ((addAgain id w.heap o).map fun r => w.putDrv i r.1 (d.addStlTest2 id m, r.2))
  | runTests {w i d o l q g fmt d' b} : w.drivers[i]? = some (some (d, o)) → o.queue = l :: q →
      d.runTests g fmt = .ok (d', b) →
      Does w (.runTests i)
        ((runFront l w.heap).map fun h => w.putDrv i h (d', { o with queue := q }))
  | popTrace {w i d o} : w.drivers[i]? = some (some (d, o)) →
      Does w (.popTrace i)
        ((popTrace w.heap o).map fun r => w.putDrv i r.1 ({ d with queue := d.queue.tail }, r.2))
  | clear {w i d o} : w.drivers[i]? = some (some (d, o)) →
      Does w (.clear i) ((clear w.heap o).map fun r => w.putDrv i r.1 (d.clear, r.2))
  | setParam {w i d o name x} : w.drivers[i]? = some (some (d, o)) →
      Does w (.setParam i name x)
        ((visitAll (o.formulas.map (·.2)) w.heap).map fun _ =>
          w.putDrv i w.heap (d.setParam name x, o))
  | online {w i d o g id t0} : w.drivers[i]? = some (some (d, o)) →
      Does w (.online i id t0)
        ((visitAll (o.formulas.lookup id).toList w.heap).map fun _ =>
          w.putDrv i w.heap ((d.getOnlineRob g id t0).2.1, o))
  | copy {w i d o} : w.drivers[i]? = some (some (d, o)) →
      Does w (.copy i) ((copyNew w.heap o).map fun r => w.addDrv r.1 (d.copy, r.2))
  | assign {w i j d o d' o'} : i ≠ j → w.drivers[i]? = some (some (d, o)) →
      w.drivers[j]? = some (some (d', o')) →
      Does w (.assign i j) ((assign w.heap o o').map fun r => w.putDrv i r.1 (d'.copy, r.2))
  | assignSelf {w i e} : w.drivers[i]? = some (some e) → Does w (.assign i i) (some w)
  | move {w i d o} : w.drivers[i]? = some (some (d, o)) →
      Does w (.move i)
        (some ((w.putDrv i w.heap (d.move.2, Own.init)).addDrv w.heap (d.move.1, o)))
  | moveAssign {w i j d o d' o'} : i ≠ j → w.drivers[i]? = some (some (d, o)) →
      w.drivers[j]? = some (some (d', o')) →
      Does w (.moveAssign i j) ((moveAssign w.heap o).map fun h =>
        (w.putDrv j h (d'.move.2, Own.init)).putDrv i h (d'.move.1, o'))
  | moveSelf {w i e} : w.drivers[i]? = some (some e) → Does w (.moveAssign i i) (some w)
  | destroy {w i d o} : w.drivers[i]? = some (some (d, o)) →
      Does w (.destroy i) ((destroy w.heap o).map fun h =>
        { w with
          heap := h
          drivers := w.drivers.set i none })
  /-- src/stl_driver.cpp:474-511 -/
  | getMonitor {w i d o id} : w.drivers[i]? = some (some (d, o)) →
      Does w (.getMonitor i id)
        ((cloneOpt (o.formulas.lookup id) w.heap).map fun r => w.addMon r.2 r.1)
  /-- `set_param`, `eval_rob` and the like (include/stl_monitor.h) -/
  | useMonitor {w k f} : w.monitors[k]? = some (some f) →
      Does w (.useMonitor k) ((visitAll f.toList w.heap).map fun _ => w)
  /-- include/stl_monitor.h:36-52 -/
  | copyMonitor {w k f} : w.monitors[k]? = some (some f) →
      Does w (.copyMonitor k) ((cloneOpt f w.heap).map fun r => w.addMon r.2 r.1)
  /-- include/stl_monitor.h:54-82 -/
  | assignMonitor {w k l f f'} : k ≠ l → w.monitors[k]? = some (some f) →
      w.monitors[l]? = some (some f') →
      Does w (.assignMonitor k l) (do
        let h ← delOpt f w.heap
        let r ← cloneOpt f' h
        some (w.putMon k r.2 r.1))
  | assignMonitorSelf {w k f} : w.monitors[k]? = some (some f) →
      Does w (.assignMonitor k k) (some w)
  /-- include/stl_monitor.h:85-95 -/
  | moveMonitor {w k f} : w.monitors[k]? = some (some f) →
      Does w (.moveMonitor k) (some ((w.putMon k w.heap none).addMon w.heap f))
  /-- include/stl_monitor.h:121-127 -/
  | destroyMonitor {w k f} : w.monitors[k]? = some (some f) →
      Does w (.destroyMonitor k) ((delOpt f w.heap).map fun h =>
        { w with
          heap := h
          monitors := w.monitors.set k none })

end Mem
end STLRom
