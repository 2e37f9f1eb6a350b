import Verif.Model.Transducer

/-!
# Monitors

Model of `include/stl_monitor.h` and `src/stl_monitor.cpp`.
-/

namespace STLRom

/-- `map::operator[]=` on an association list: replaces the entry or adds one. -/
def Assoc.set {α : Type} (m : Assoc α) (k : String) (v : α) : Assoc α :=
  match m with
  | [] => [(k, v)]
  | (k', v') :: r => if k' = k then (k, v) :: r else (k', v') :: Assoc.set r k v

/-- The static members of `class Signal` (include/signal.h:80-86, initialised in
src/signal.cpp:7-11). -/
structure Globals where
  B : ℚ
  sem : Semantics
  ip : Interpol
  deriving DecidableEq, Repr

/-- Initial values of the statics (src/signal.cpp:8-11). -/
def Globals.init : Globals := ⟨10000, .SPACE, .LINEAR⟩

/-- `class STLMonitor` (include/stl_monitor.h:15-29). -/
structure Monitor where
  data : List (List ℚ)
  params : Assoc ℚ
  smap : Assoc ℕ
  rob : ℚ
  lowerRob : ℚ
  upperRob : ℚ
  start : ℚ
  stop : ℚ
  formula : Option Tr
  sem : Semantics
  ip : Interpol
  deriving DecidableEq, Repr

/-- `std::invalid_argument`. -/
def invalidArgument (msg : String) : Fault := .exn ("invalid_argument: " ++ msg)

namespace Monitor

/-- `STLMonitor::STLMonitor()` (include/stl_monitor.h:31). -/
def init : Monitor := ⟨[], [], [], 0, 0, 0, 0, 0, none, .SPACE, .LINEAR⟩

/-- Copy constructor and copy assignment (include/stl_monitor.h:34-81). -/
def copy (m : Monitor) : Monitor := { m with formula := m.formula.map Tr.clone }

/-- Move constructor and move assignment (include/stl_monitor.h:84-118): the new object
and the moved-from one, whose containers are left empty (the usual behaviour of the
standard library; the standard only promises a valid state). -/
def move (m : Monitor) : Monitor × Monitor :=
  (m, { m with data := [], params := [], smap := [], formula := none })

/-- The string to enum conversion of `set_semantics` (include/stl_monitor.h:128-146,
include/stl_driver.h:131-149, include/signal.h:88-98). -/
def parseSemantics (s : String) : M Semantics :=
  if s = "SPACE" then .ok .SPACE
  else if s = "LEFT_TIME" then .ok .LEFT_TIME
  else if s = "RIGHT_TIME" then .ok .RIGHT_TIME
  else .error (invalidArgument "Invalid semantics string")

/-- The enum to string conversion of `get_semantics` (include/stl_monitor.h:148-161,
include/stl_driver.h:151-164, include/signal.h:100-111). -/
def showSemantics : Semantics → M String
  | .SPACE => .ok "SPACE"
  | .LEFT_TIME => .ok "LEFT_TIME"
  | .RIGHT_TIME => .ok "RIGHT_TIME"
  | .BOOLEAN => .error (invalidArgument "Invalid semantics value")

/-- The string to enum conversion of `set_interpol` (include/stl_monitor.h:163-178,
include/stl_driver.h:166-180, include/signal.h:113-121). -/
def parseInterpol (s : String) : M Interpol :=
  if s = "PREVIOUS" then .ok .PREVIOUS
  else if s = "LINEAR" then .ok .LINEAR
  else .error (invalidArgument "Invalid interpol string")

/-- The enum to string conversion of `get_interpol` (include/stl_monitor.h:180-191,
include/stl_driver.h:182-193, include/signal.h:123-132). -/
def showInterpol : Interpol → M String
  | .PREVIOUS => .ok "PREVIOUS"
  | .LINEAR => .ok "LINEAR"

/-- `STLMonitor::set_semantics` (include/stl_monitor.h:128-146). -/
def setSemantics (m : Monitor) (s : String) : M Monitor := do
  let v ← parseSemantics s
  .ok { m with sem := v }

/-- `STLMonitor::get_semantics` (include/stl_monitor.h:148-161). -/
def getSemantics (m : Monitor) : M String := showSemantics m.sem

/-- `STLMonitor::set_interpol` (include/stl_monitor.h:163-178); the message it prints is
not modelled. -/
def setInterpol (m : Monitor) (s : String) : M Monitor := do
  let v ← parseInterpol s
  .ok { m with ip := v }

/-- `STLMonitor::get_interpol` (include/stl_monitor.h:180-191). -/
def getInterpol (m : Monitor) : M String := showInterpol m.ip

/-- `STLMonitor::set_param` (include/stl_monitor.h:195-210). -/
def setParam (m : Monitor) (name : String) (x : ℚ) : M Monitor :=
  match m.params.lookup name with
  | some prev => if x ≠ prev then .ok { m with params := m.params.set name x } else .ok m
  | none => .error (invalidArgument "Parameter does not exist in param_map")

/-- `STLMonitor::get_param` (include/stl_monitor.h:212-223). -/
def getParam (m : Monitor) (name : String) : M ℚ :=
  match m.params.lookup name with
  | some x => .ok x
  | none => .error (invalidArgument "Parameter does not exist in param_map")

/-- `STLMonitor::reset_signal_data` (include/stl_monitor.h:225-228). -/
def resetSignalData (m : Monitor) : Monitor := { m with data := [] }

/-- `STLMonitor::set_eval_time` (include/stl_monitor.h:236-240). -/
def setEvalTime (m : Monitor) (s e : ℚ) : Monitor := { m with start := s, stop := e }

/-- The checks of `add_sample` (src/stl_monitor.cpp:15-26, src/stl_driver.cpp:461-472). -/
def pushRow (data : List (List ℚ)) (width : ℕ) (row : List ℚ) : M (List (List ℚ)) :=
  if row.length ≠ width + 1 then
    .error (invalidArgument "Sample size does not match the number of signals.")
  else
    match data.getLast? with
    | none => .ok (data ++ [row])
    | some last =>
      match row, last with
      | t :: _, t' :: _ =>
        if t ≤ t' then
          .error (invalidArgument
            "Sample time must be strictly greater than the last sample time.")
        else .ok (data ++ [row])
      | _, _ => .error .ub

/-- `STLMonitor::add_sample` (src/stl_monitor.cpp:15-26). -/
def addSample (m : Monitor) (row : List ℚ) : M Monitor := do
  let d ← pushRow m.data m.smap.length row
  .ok { m with data := d }

/-- What `eval_rob` does to the tree before computing (src/stl_monitor.cpp:40-45). -/
def prepare (params : Assoc ℚ) (s e : ℚ) (T : Tr) : Tr :=
  (((T.setTraceData).setParamMap params).reset).setHorizon params s e

/-- The three computations of `eval_rob` (src/stl_monitor.cpp:46-48) on the same tree. -/
def run3 (env : Env) (T : Tr) : M (Tr × ℚ × ℚ × ℚ) := do
  let (T, r) ← T.computeRob env
  let (T, lo) ← T.computeLow env
  let (T, up) ← T.computeUp env
  .ok (T, r, lo, up)

/-- `STLMonitor::eval_rob(double, double)` (src/stl_monitor.cpp:35-51): the new statics,
the new monitor and the outcome.  When the run fails the tree keeps the state it had
before the computation; the code leaves it partly computed, but the next evaluation
resets it.  The model also keeps the old `rob` then; the code assigns `rob` before it
computes the bounds, so that an exception raised only there would leave the new one. -/
def evalRob (g : Globals) (m : Monitor) (s e : ℚ) : Globals × Monitor × M ℚ :=
  match m.formula with
  | none => (g, m, .ok m.rob)
  | some T =>
    let T := prepare m.params s e T
    let g := { g with sem := m.sem, ip := m.ip }
    match run3 ⟨g.B, m.sem, m.ip, m.data, m.params⟩ T with
    | .ok (T, r, lo, up) =>
      (g, { m with formula := some T, rob := r, lowerRob := lo, upperRob := up }, .ok r)
    | .error f => (g, { m with formula := some T }, .error f)

/-- `STLMonitor::eval_rob(double)` (src/stl_monitor.cpp:32-34). -/
def evalRob1 (g : Globals) (m : Monitor) (t : ℚ) : Globals × Monitor × M ℚ := evalRob g m t t

/-- `STLMonitor::eval_rob()` (src/stl_monitor.cpp:28-30). -/
def evalRob0 (g : Globals) (m : Monitor) : Globals × Monitor × M ℚ :=
  evalRob g m m.start m.stop

/-- `STLMonitor::get_signal` (include/stl_monitor.h:248-251): a null formula is
dereferenced. -/
def getSignal (m : Monitor) : M Signal :=
  match m.formula with
  | none => .error .ub
  | some T => .ok T.getSignal

end Monitor
end STLRom
