import Verif.Model.Monitor

/-!
# Drivers

Model of the part of `include/stl_driver.h` and `src/stl_driver.cpp` that manages
parameters, data, formulas, monitors and tests.  Parsing is in `Verif.Model.Parser`.
-/

namespace STLRom

/-- `class stl_test` (include/stl_driver.h:16-45); ownership of `formula` is modelled
separately (see `Verif.Model.Heap`). -/
structure StlTest where
  testId : String
  params : Assoc ℚ
  formula : Option Tr
  reportPositive : String
  reportNegative : String
  isError : Bool
  deriving DecidableEq, Repr

/-- `struct trace_test` (include/stl_driver.h:47-54). -/
structure TraceTest where
  id : String
  env : String
  simTime : ℚ
  visu : Bool
  tests : List StlTest
  deriving DecidableEq, Repr

/-- `class STLDriver` (include/stl_driver.h:62-105).  The debug flags, the stream name
and the lexer pointer are left out. -/
structure Driver where
  sem : Semantics
  ip : Interpol
  params : Assoc ℚ
  smap : Assoc ℕ
  formulas : Assoc Tr
  data : List (List ℚ)
  stlTests : Assoc StlTest
  queue : List TraceTest
  report : String
  testLog : String
  nbPos : ℕ
  nbTotal : ℕ
  errorFlag : Bool
  deriving DecidableEq, Repr

namespace Driver

/-- `STLDriver::STLDriver()` (src/stl_driver.cpp:18-29). -/
def init : Driver := ⟨.SPACE, .LINEAR, [], [], [], [], [], [], "", "", 0, 0, false⟩

/-- `STLDriver::STLDriver(trace_data)` (src/stl_driver.cpp:31-43). -/
def ofData (d : List (List ℚ)) : Driver := { init with data := d }

/-- Copy constructor and assignment (src/stl_driver.cpp:53-109), the values; the sharing
of test formulas is not represented here. -/
def copy (d : Driver) : Driver :=
  { d with formulas := d.formulas.map fun p => (p.1, p.2.clone) }

/-- Move constructor and assignment (src/stl_driver.cpp:111-148); moved-from containers
are empty. -/
def move (d : Driver) : Driver × Driver :=
  (d, { d with
    params := []
    smap := []
    formulas := []
    data := []
    stlTests := []
    queue := []
    report := ""
    testLog := "" })

/-- `STLDriver::set_semantics` (include/stl_driver.h:131-149). -/
def setSemantics (d : Driver) (s : String) : M Driver := do
  let v ← Monitor.parseSemantics s
  .ok { d with sem := v }

/-- `STLDriver::get_semantics` (include/stl_driver.h:151-164). -/
def getSemantics (d : Driver) : M String := Monitor.showSemantics d.sem

/-- `STLDriver::set_interpol` (include/stl_driver.h:166-180). -/
def setInterpol (d : Driver) (s : String) : M Driver := do
  let v ← Monitor.parseInterpol s
  .ok { d with ip := v }

/-- `STLDriver::get_interpol` (include/stl_driver.h:182-193). -/
def getInterpol (d : Driver) : M String := Monitor.showInterpol d.ip

/-- `STLDriver::get_param` (src/stl_driver.cpp:371-378). -/
def getParam (d : Driver) (name : String) : ℚ := (d.params.lookup name).getD 0

/-- `STLDriver::set_param` (src/stl_driver.cpp:380-392). -/
def setParam (d : Driver) (name : String) (x : ℚ) : Driver :=
  { d with
    params := if (d.params.lookup name).isSome then d.params.set name x else d.params
    formulas := d.formulas.map fun p => (p.1, p.2.setParam name x) }

/-- `STLDriver::add_sample` (src/stl_driver.cpp:461-472). -/
def addSample (d : Driver) (row : List ℚ) : M Driver := do
  let data ← Monitor.pushRow d.data d.smap.length row
  .ok { d with data := data }

/-- `STLDriver::get_monitor` (src/stl_driver.cpp:474-511): an unknown name gives a
default monitor (and a printed warning, not modelled). -/
def getMonitor (g : Globals) (d : Driver) (id : String) : Monitor :=
  match d.formulas.lookup id with
  | some T => ⟨d.data, d.params, d.smap, 0, -g.B, g.B, 0, 0, some T.clone, d.sem, d.ip⟩
  | none => Monitor.init

/-- `STLDriver::get_online_rob` (src/stl_driver.cpp:513-551): the new statics, the new
driver and the returned vector. -/
def getOnlineRob (g : Globals) (d : Driver) (id : String) (t0 : ℚ) :
    Globals × Driver × M (List ℚ) :=
  if d.data = [] then (g, d, .ok [])
  else
    match d.formulas.lookup id with
    | none => (g, d, .ok [])
    | some T =>
      let T := Monitor.prepare d.params t0 t0 T
      let g := { g with sem := d.sem, ip := d.ip }
      match Monitor.run3 ⟨g.B, d.sem, d.ip, d.data, d.params⟩ T with
      | .ok (T, r, lo, up) => (g, { d with formulas := d.formulas.set id T }, .ok [r, lo, up])
      | .error f => (g, { d with formulas := d.formulas.set id T }, .error f)

/-- `STLDriver::add_trace_test` (src/stl_driver.cpp:361-369). -/
def addTraceTest (d : Driver) (id env : String) (simTime : ℚ) (visu : Bool) : Driver :=
  { d with queue := d.queue ++ [⟨id, env, simTime, visu, []⟩] }

/-- `trace_test_queue.back().tests.push_back(t)`. -/
def pushTest (q : List TraceTest) (t : StlTest) : List TraceTest :=
  match q.getLast? with
  | none => q
  | some b => q.dropLast ++ [{ b with tests := b.tests ++ [t] }]

/-- `STLDriver::add_stl_test(const string&)` (src/stl_driver.cpp:395-408).  A test without a formula,
which only a caller that writes the public `stl_test_map` can make, is queued here; the code would
dereference its null formula. -/
def addStlTest1 (d : Driver) (id : String) : Driver :=
  let d := { d with nbTotal := d.nbTotal + 1 }
  match d.stlTests.lookup id with
  | none => d
  | some t =>
    { d with queue := pushTest d.queue { t with formula := t.formula.map Tr.clone, params := [] } }

/-- `STLDriver::add_stl_test(const string&, const map&)` (src/stl_driver.cpp:410-433). -/
def addStlTest2 (d : Driver) (id : String) (local_ : Assoc ℚ) : Driver :=
  let d := { d with nbTotal := d.nbTotal + 1 }
  match d.stlTests.lookup id with
  | none => d
  | some t =>
    { d with
      queue := pushTest d.queue { t with formula := t.formula.map Tr.clone, params := local_ } }

/-- The six-argument `STLDriver::add_stl_test` (src/stl_driver.cpp:435-459). -/
def addStlTest6 (d : Driver) (id : String) (local_ : Assoc ℚ) (f : Tr)
    (pos neg : String) (isErr : Bool) : Driver :=
  let d := { d with nbTotal := d.nbTotal + 1 }
  if d.queue = [] then d
  else
    let t : StlTest := ⟨id, local_, some f.clone, pos, neg, isErr⟩
    { d with stlTests := d.stlTests.set id t, queue := pushTest d.queue t }

/-- `STLDriver::clear` (src/stl_driver.cpp:197-239), the values: `signal_map` and `data`
are kept. -/
def clear (d : Driver) : Driver :=
  { d with
    formulas := []
    params := []
    stlTests := []
    queue := []
    report := ""
    testLog := ""
    errorFlag := false
    nbTotal := 0
    nbPos := 0 }

/-- One iteration of the loop of `STLDriver::run_tests` (src/stl_driver.cpp:323-354):
`formula->trace_data_ptr = &data` reaches the root only and does not reset `td_idx`;
`init_horizon` re-propagates the root's own horizon.  `fmt` is `d_to_s`.  A test without a formula
(see `addStlTest1`) is a fault here; the code would end the loop. -/
def runOne (g : Globals) (fmt : ℚ → String) (d : Driver) (t : StlTest) : M Driver :=
  match t.formula with
  | none => .error .ub
  | some T => do
    let (_, rob) ← (T.setHorizon [] T.st.start T.st.stop).computeRob
      ⟨g.B, g.sem, g.ip, d.data, []⟩
    let d := { d with
      testLog := d.testLog ++ (t.testId ++ ": " ++ fmt rob ++ "\n")
      report := d.report ++ ("    " ++ t.testId ++ ": " ++ fmt rob) }
    if 0 < rob then
      .ok { d with
        nbPos := d.nbPos + 1
        report := d.report ++ "  --> PB\n" ++
          (if t.reportPositive = "" then "" else "    " ++ t.reportPositive ++ "\n")
        errorFlag := if t.isError then true else d.errorFlag }
    else
      .ok { d with
        report := d.report ++ "  --> OK\n" ++
          (if t.reportNegative = "" then "" else "    " ++ t.reportNegative ++ "\n") }

/-- The loop of `STLDriver::run_tests` (src/stl_driver.cpp:323-354). -/
def runLoop (g : Globals) (fmt : ℚ → String) (d : Driver) : List StlTest → M Driver
  | [] => .ok d
  | t :: ts => do
    let d ← runOne g fmt d t
    runLoop g fmt d ts

/-- `STLDriver::run_tests` (src/stl_driver.cpp:303-359): on an empty queue `pop_front`
is undefined behaviour. -/
def runTests (g : Globals) (fmt : ℚ → String) (d : Driver) : M (Driver × Bool) :=
  match d.queue with
  | [] => .error .ub
  | q :: qs => do
    let d := { d with errorFlag := false, report := d.report ++ ("stl_test " ++ q.id ++ "\n") }
    let d ← runLoop g fmt d q.tests
    let d := { d with report := d.report ++ "\n", queue := qs }
    .ok (d, d.errorFlag)

end Driver
end STLRom
