import Verif.Model.Driver

/-!
# The accessors of the test queue of a driver, and its log file
-/

namespace STLRom
namespace Driver

/-- `STLDriver::get_next_stl_test` (include/stl_driver.h:271-278): `front()` of an empty deque is undefined
behaviour.  The pointer into the queue is represented by the test it points to. -/
def nextStlTest (d : Driver) : M (Option StlTest) :=
  match d.queue with
  | [] => .error .ub
  | q :: _ => .ok q.tests.head?

/-- `STLDriver::get_next_formula` (include/stl_driver.h:261-269).  The pointer is represented by the formula; `none`
is `nullptr`. -/
def nextFormula (d : Driver) : M (Option Tr) :=
  match d.queue with
  | [] => .error .ub
  | q :: _ =>
    match q.tests with
    | [] => .ok none
    | t :: _ => .ok t.formula

/-- `STLDriver::get_next_trace_test` (include/stl_driver.h:280-286).  The pointer is represented by the trace test. -/
def nextTraceTest (d : Driver) : Option TraceTest :=
  match d.queue with
  | [] => none
  | q :: _ => some q

/-- `STLDriver::trace_test_queue_empty` (include/stl_driver.h:288-291). -/
def traceTestQueueEmpty (d : Driver) : Bool := d.queue.isEmpty

/-- `STLDriver::get_next_trace_test_env` (include/stl_driver.h:293-299). -/
def nextTraceTestEnv (d : Driver) : String :=
  match d.queue with
  | [] => ""
  | q :: _ => q.env

/-- `STLDriver::pop_next_trace_test` (include/stl_driver.h:301-305), the values. -/
def popNextTraceTest (d : Driver) : Driver :=
  match d.queue with
  | [] => d
  | _ :: qs => { d with queue := qs }

/-- `STLDriver::run_next_trace_test` (include/stl_driver.h:308-311): the result of `run_tests` is dropped. -/
def runNextTraceTest (g : Globals) (fmt : ℚ → String) (d : Driver) : M Driver :=
  (d.runTests g fmt).map Prod.fst

/-- What `STLDriver::dump_test_log_file` writes into a file that can be opened (src/stl_driver.cpp:587-605).  The
file and its name are left out. -/
def logFile (d : Driver) : String :=
  d.testLog ++ "\n" ++ "Number of positive STL tests: " ++ toString d.nbPos ++ "/" ++ toString d.nbTotal

end Driver
end STLRom
