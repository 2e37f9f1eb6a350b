import Verif.Model.Driver

/-!
# Client programs

The public calls of monitors and drivers as data, so that a client program is a list of calls.
Every object owns its formulas (`clone` is a deep copy, include/transducer.h:253-535), and
`eval_rob` / `get_online_rob` re-aim the tree's `trace_data_ptr` and `param_map_ptr` at the
object's own fields before reading them (src/stl_monitor.cpp:40-41, src/stl_driver.cpp:529-530);
so an object is a value and the only thing objects share is `Globals`.
-/

namespace STLRom

/-- `Signal::set_BigM` (include/signal.h:135-137). -/
def Globals.setBigM (g : Globals) (x : ℚ) : Globals := { g with B := x }

/-- `Signal::get_BigM` (include/signal.h:139-141): the `double` is converted to `int`, which
truncates towards zero and is undefined when the result does not fit (32 bits assumed). -/
def Globals.getBigM (g : Globals) : M ℤ :=
  let n := Int.tdiv g.B.num g.B.den
  if -2147483648 ≤ n ∧ n ≤ 2147483647 then .ok n else .error .ub

/-- `Signal::set_semantics` (include/signal.h:88-98). -/
def Globals.setSemantics (g : Globals) (s : String) : M Globals := do
  let v ← Monitor.parseSemantics s
  .ok { g with sem := v }

/-- `Signal::get_semantics` (include/signal.h:100-111). -/
def Globals.getSemantics (g : Globals) : M String := Monitor.showSemantics g.sem

/-- `Signal::set_interpol` (include/signal.h:113-121). -/
def Globals.setInterpol (g : Globals) (s : String) : M Globals := do
  let v ← Monitor.parseInterpol s
  .ok { g with ip := v }

/-- `Signal::get_interpol` (include/signal.h:123-132). -/
def Globals.getInterpol (g : Globals) : M String := Monitor.showInterpol g.ip

/-- What a caller can see after `eval_rob`: the returned value, `get_lower_rob`,
`get_upper_rob` (include/stl_monitor.h:231-232) and `get_signal`. -/
structure Report where
  rob : ℚ
  lower : ℚ
  upper : ℚ
  signal : M Signal
  deriving DecidableEq, Repr

/-- The public calls on a monitor (include/stl_monitor.h:128-251). -/
inductive MonOp where
  | addSample (row : List ℚ)
  | setParam (name : String) (x : ℚ)
  | setSemantics (s : String)
  | setInterpol (s : String)
  | setEvalTime (s e : ℚ)
  | resetData
  | eval0
  | eval1 (t : ℚ)
  | eval2 (s e : ℚ)
  | getParam (name : String)
  | getSemantics
  | getInterpol
  deriving DecidableEq, Repr

/-- What a call gives back. -/
inductive Reply where
  | done
  | number (x : ℚ)
  | text (s : String)
  | report (r : Report)
  | list (l : List ℚ)
  deriving DecidableEq, Repr

/-- A call that may throw and only changes the object when it returns normally. -/
def tryCall {α : Type} (old : α) (r : M α) : α × M Reply :=
  match r with
  | .ok x => (x, .ok .done)
  | .error f => (old, .error f)

/-- The observable part of an evaluation of a monitor. -/
def Monitor.observe (m : Monitor) (r : M ℚ) : M Reply :=
  match r with
  | .ok v => .ok (.report ⟨v, m.lowerRob, m.upperRob, m.getSignal⟩)
  | .error f => .error f

/-- One call on a monitor: the new statics, the new monitor and the reply. -/
def Monitor.step (g : Globals) (m : Monitor) : MonOp → Globals × Monitor × M Reply
  | .addSample row => (g, tryCall m (m.addSample row))
  | .setParam n x => (g, tryCall m (m.setParam n x))
  | .setSemantics s => (g, tryCall m (m.setSemantics s))
  | .setInterpol s => (g, tryCall m (m.setInterpol s))
  | .setEvalTime s e => (g, m.setEvalTime s e, .ok .done)
  | .resetData => (g, m.resetSignalData, .ok .done)
  | .eval0 =>
    let (g, m, r) := m.evalRob0 g
    (g, m, m.observe r)
  | .eval1 t =>
    let (g, m, r) := m.evalRob1 g t
    (g, m, m.observe r)
  | .eval2 s e =>
    let (g, m, r) := m.evalRob g s e
    (g, m, m.observe r)
  | .getParam n => (g, m, (m.getParam n).map .number)
  | .getSemantics => (g, m, m.getSemantics.map .text)
  | .getInterpol => (g, m, m.getInterpol.map .text)

/-- A client program on one monitor: the final state and the replies in order. -/
def Monitor.run (g : Globals) (m : Monitor) : List MonOp → Globals × Monitor × List (M Reply)
  | [] => (g, m, [])
  | op :: ops =>
    let (g, m, r) := m.step g op
    let (g, m, rs) := Monitor.run g m ops
    (g, m, r :: rs)

/-- The public calls on a driver other than parsing and tests (include/stl_driver.h:107-220). -/
inductive DrvOp where
  | addSample (row : List ℚ)
  | setParam (name : String) (x : ℚ)
  | setSemantics (s : String)
  | setInterpol (s : String)
  | onlineRob (id : String) (t0 : ℚ)
  | getParam (name : String)
  | getSemantics
  | getInterpol
  deriving DecidableEq, Repr

/-- One call on a driver. -/
def Driver.step (g : Globals) (d : Driver) : DrvOp → Globals × Driver × M Reply
  | .addSample row => (g, tryCall d (d.addSample row))
  | .setParam n x => (g, d.setParam n x, .ok .done)
  | .setSemantics s => (g, tryCall d (d.setSemantics s))
  | .setInterpol s => (g, tryCall d (d.setInterpol s))
  | .onlineRob id t0 =>
    let (g, d, r) := d.getOnlineRob g id t0
    (g, d, r.map .list)
  | .getParam n => (g, d, .ok (.number (d.getParam n)))
  | .getSemantics => (g, d, d.getSemantics.map .text)
  | .getInterpol => (g, d, d.getInterpol.map .text)

/-- A client program on one driver. -/
def Driver.run (g : Globals) (d : Driver) : List DrvOp → Globals × Driver × List (M Reply)
  | [] => (g, d, [])
  | op :: ops =>
    let (g, d, r) := d.step g op
    let (g, d, rs) := Driver.run g d ops
    (g, d, r :: rs)

/-- A program over one driver and any number of monitors. -/
structure World where
  g : Globals
  drv : Driver
  mons : List Monitor
  deriving DecidableEq, Repr

/-- Calls of such a program.  `getMonitor` and `copyMonitor` create the next monitor;
`assignMonitor i j` is `m_i = m_j`, `moveMonitor i` moves monitor `i` into a new one; the
two `global` calls are the static setters of `class Signal`. -/
inductive Cmd where
  | drv (op : DrvOp)
  | mon (i : ℕ) (op : MonOp)
  | getMonitor (id : String)
  | copyMonitor (i : ℕ)
  | assignMonitor (i j : ℕ)
  | moveMonitor (i : ℕ)
  | globalSemantics (s : String)
  | globalInterpol (s : String)
  deriving DecidableEq, Repr

/-- One call; a call on a monitor that does not exist is not a program and changes nothing. -/
def World.step (w : World) : Cmd → World × M Reply
  | .drv op =>
    let (g, d, r) := w.drv.step w.g op
    ({ w with g := g, drv := d }, r)
  | .mon i op =>
    match w.mons[i]? with
    | none => (w, .ok .done)
    | some m =>
      let (g, m, r) := m.step w.g op
      ({ w with g := g, mons := w.mons.set i m }, r)
  | .getMonitor id => ({ w with mons := w.mons ++ [w.drv.getMonitor w.g id] }, .ok .done)
  | .copyMonitor i =>
    match w.mons[i]? with
    | none => (w, .ok .done)
    | some m => ({ w with mons := w.mons ++ [m.copy] }, .ok .done)
  | .assignMonitor i j =>
    match w.mons[i]?, w.mons[j]? with
    | some _, some m => ({ w with mons := w.mons.set i (if i = j then m else m.copy) }, .ok .done)
    | _, _ => (w, .ok .done)
  | .moveMonitor i =>
    match w.mons[i]? with
    | none => (w, .ok .done)
    | some m => ({ w with mons := w.mons.set i m.move.2 ++ [m.move.1] }, .ok .done)
  | .globalSemantics s =>
    match w.g.setSemantics s with
    | .ok g => ({ w with g := g }, .ok .done)
    | .error f => (w, .error f)
  | .globalInterpol s =>
    match w.g.setInterpol s with
    | .ok g => ({ w with g := g }, .ok .done)
    | .error f => (w, .error f)

/-- A program: the final world and the replies, each with the call that caused it. -/
def World.run (w : World) : List Cmd → World × List (Cmd × M Reply)
  | [] => (w, [])
  | c :: cs =>
    let (w, r) := w.step c
    let (w, rs) := World.run w cs
    (w, (c, r) :: rs)

end STLRom
