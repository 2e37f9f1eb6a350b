import Verif.Model.Print
import Verif.Model.Driver
import Mathlib.Data.List.Sort

/-!
# Writing to a stream

`operator<<` and the `print` and `display` functions, on a stream that remembers the format it was set to.
-/

namespace STLRom
namespace Print

/-- The first `p` significant digits of a positive number, and the exponent of the first one. -/
def leading (p : ℕ) (a : ℚ) : ℕ × ℤ :=
  let x := Int.log 10 a
  let n := nearest (a * 10 ^ ((p : ℤ) - 1 - x))
  if n = 10 ^ p then (10 ^ (p - 1), x + 1) else (n, x)

/-- `%g` with `p` digits (`p` at least 1); `number` is the case of six.  Negative zero, infinities and NaN are not
modelled. -/
def general (p : ℕ) (q : ℚ) : List Char :=
  if q = 0 then ['0']
  else
    let (n, x) := leading p |q|
    (if q < 0 then ['-'] else []) ++
      if -4 ≤ x ∧ x < p then
        digits (x.toNat + 1) (n / 10 ^ ((p : ℤ) - 1 - x).toNat) ++ fraction (digits ((p : ℤ) - 1 - x).toNat n)
      else
        digits 1 (n / 10 ^ (p - 1)) ++ fraction (digits (p - 1) n) ++
          'e' :: (if x < 0 then '-' else '+') :: exponent x.natAbs

/-- A natural number. -/
def whole (n : ℕ) : List Char := digits (Nat.log 10 n + 1) n

/-- `%f` with `p` digits after the point (`p` at least 1). -/
def fixedPoint (p : ℕ) (q : ℚ) : List Char :=
  let n := nearest (|q| * 10 ^ p)
  (if q < 0 then ['-'] else []) ++ (whole (n / 10 ^ p) ++ '.' :: digits p n)

end Print

open Print

/-- The format of a stream: `std::fixed` or not, and its precision. -/
structure Fmt where
  fixed : Bool
  prec : ℕ
  deriving DecidableEq, Repr

/-- The format of a new stream, and of `cout` when the program starts. -/
def Fmt.init : Fmt := ⟨false, 6⟩

/-- `os << x` for a `double`. -/
def Fmt.num (f : Fmt) (q : ℚ) : List Char := if f.fixed then fixedPoint f.prec q else general f.prec q

/-- The same after `std::setw(n)`: filled up with spaces on the left. -/
def Fmt.padded (f : Fmt) (n : ℕ) (q : ℚ) : List Char :=
  List.replicate (n - (f.num q).length) ' ' ++ f.num q

/-- The `print` methods of formulas (as `Tr.print`) on a stream of any format: a constant is written to the stream
itself (include/signal_expr.h:135-138), an interval by way of a stream of its own (src/interval.cpp:39-53). -/
def Tr.printOn (f : Fmt) : Tr → List Char
  | sig _ x _ _ => x.toList ++ "[t]".toList
  | const _ p v _ => if p = "" then f.num v else p.toList
  | abs _ c => "abs( ".toList ++ (c.printOn f ++ " )".toList)
  | plus _ l r => l.printOn f ++ '+' :: r.printOn f
  | minus _ l r => l.printOn f ++ '-' :: r.printOn f
  | mult _ l r => l.printOn f ++ '*' :: r.printOn f
  | atom _ k l r => l.printOn f ++ ((match k with
    | .less => " < ".toList
    | .greater => " > ".toList) ++ r.printOn f)
  | not _ c => "not ".toList ++ c.printOn f
  | and _ l r => l.printOn f ++ (" and ".toList ++ r.printOn f)
  | or _ l r => l.printOn f ++ (" or ".toList ++ r.printOn f)
  | implies _ l r => l.printOn f ++ (" => ".toList ++ r.printOn f)
  | ev _ I c => "ev_".toList ++ (I.print ++ (" (".toList ++ (c.printOn f ++ ") ".toList)))
  | alw _ I c => "alw_".toList ++ (I.print ++ (" (".toList ++ (c.printOn f ++ ") ".toList)))
  | untl _ l I r => " (".toList ++ (l.printOn f ++ (") until_".toList ++ (I.print ++
      (" (".toList ++ (r.printOn f ++ ") ".toList)))))

/-- What can be written. -/
inductive OutItem where
  /-- `os << Point`. -/
  | point (t v : ℚ)
  /-- `os << Sample`. -/
  | sample (x : Sample)
  /-- `os << Sequence`. -/
  | sequence (l : List (ℚ × ℚ))
  /-- `os << Signal`. -/
  | signal (x : Signal)
  /-- `Point::print_point`. -/
  | printPoint (t v : ℚ)
  /-- `Sample::print_sample`. -/
  | printSample (x : Sample)
  /-- `os << transducer`. -/
  | formula (T : Tr)
  /-- `STLMonitor::display_formula`. -/
  | displayFormula (m : Monitor)
  /-- `STLMonitor::display_signal_names`. -/
  | displaySignals (m : Monitor)
  /-- `os << STLMonitor`. -/
  | monitor (m : Monitor)
  /-- `STLDriver::print_trace`. -/
  | trace (d : Driver)
  /-- `STLDriver::print`. -/
  | driver (d : Driver)

namespace Stream

/-- The entries of a `std::map`, in the order in which it is traversed. -/
def byName {α : Type} (m : Assoc α) : Assoc α := m.insertionSort fun a b => a.1 ≤ b.1

/-- `os << Sample` (src/signal.cpp:247-251): the precision is set to 8 before the first number and stays. -/
def sample (f : Fmt) (x : Sample) : List Char :=
  let f : Fmt := { f with prec := 8 }
  f.padded 12 x.time ++ ("  ".toList ++ (f.padded 12 x.value ++ ("  ".toList ++ f.num x.derivative)))

/-- The samples of a signal, one per line (src/signal.cpp:270-272). -/
def samples (f : Fmt) : List Sample → List Char
  | [] => []
  | x :: l => sample f x ++ '\n' :: samples { f with prec := 8 } l

/-- A loop that writes a separator after every entry but the last (include/stl_monitor.h:278-285, 288-295). -/
def listed (show_ : String × α → List Char) : List (String × α) → List Char
  | [] => []
  | [e] => show_ e
  | e :: l => show_ e ++ (", ".toList ++ listed show_ l)

/-- The text written for an item on a stream of format `f`. -/
def text (f : Fmt) : OutItem → List Char
  -- src/signal.cpp:242-245
  | .point t v => f.num t ++ ';' :: f.num v
  | .sample x => sample f x
  -- src/signal.cpp:253-262
  | .sequence l =>
    if l = [] then "EMPTY\n".toList
    else l.flatMap fun p => f.num p.1 ++ ';' :: (f.num p.2 ++ ['\n'])
  -- src/signal.cpp:264-274
  | .signal x =>
    if x.samples = [] then "EMPTY\n".toList
    else "def = [".toList ++ (f.num x.beginTime ++ (", ".toList ++ (f.num x.endTime ++
      (")\n".toList ++ samples f x.samples))))
  -- include/signal.h:26
  | .printPoint t v =>
    let f : Fmt := ⟨true, 5⟩
    "Time ".toList ++ (f.num t ++ (" Value ".toList ++ (f.num v ++ ['\n'])))
  -- include/signal.h:41
  | .printSample x =>
    let f : Fmt := ⟨true, 5⟩
    "Time ".toList ++ (f.num x.time ++ (" Value ".toList ++ (f.num x.value ++
      (" Derivative ".toList ++ (f.num x.derivative ++ ['\n'])))))
  -- src/transducer.cpp:307-310
  | .formula T => T.printOn f
  -- include/stl_monitor.h:262-272
  | .displayFormula m =>
    match m.formula with
    | some T => T.printOn f ++ ['\n']
    | none => "No formula set.\n".toList
  -- include/stl_monitor.h:254-260
  | .displaySignals m => (byName m.smap).flatMap fun e => e.1.toList ++ (": ".toList ++ (whole e.2 ++ ['\n']))
  -- include/stl_monitor.h:274-309
  | .monitor m =>
    "Signal Names: ".toList ++ (listed (fun e => e.1.toList) (byName m.smap) ++ ('\n' ::
      ("Parameters: ".toList ++ (listed (fun e => e.1.toList ++ (": ".toList ++ f.num e.2)) (byName m.params) ++ ('\n' ::
        ("Formula: ".toList ++ ((match m.formula with
          | some T => T.printOn f
          | none => "No formula set.".toList) ++ ['\n'])))))))
  -- src/stl_driver.cpp:548-558
  | .trace d => d.data.flatMap fun row => row.flatMap (fun x => f.num x ++ [' ']) ++ ['\n']
  -- src/stl_driver.cpp:241-284
  | .driver d =>
    "\nAssigned formulas:\n-------------------\n".toList ++
      ((byName d.formulas).flatMap (fun e => e.1.toList ++ (":\n".toList ++ (e.2.printOn f ++ ['\n']))) ++
      ("\nDefault Parameters:\n---------------------\n".toList ++
      ((byName d.params).flatMap (fun e => e.1.toList ++ ('=' :: (f.num e.2 ++ ['\n']))) ++ ['\n'])))

/-- The format the stream is left with. -/
def after (f : Fmt) : OutItem → Fmt
  | .sample _ => { f with prec := 8 }
  | .signal x => if x.samples = [] then f else { f with prec := 8 }
  | .printPoint _ _ => ⟨true, 5⟩
  | .printSample _ => ⟨true, 5⟩
  | _ => f

/-- The text of several items written to one stream.  (`print_point`, `print_sample`, `display_formula` and
`display_signal_names` write to `cout`, `print_trace()` too; the stream is then `cout`.) -/
def write (f : Fmt) : List OutItem → List Char
  | [] => []
  | i :: l => text f i ++ write (after f i) l

/-- `print_monitor` of the Python module (src/pybind11/main.cpp:32-54): the string passed to `py::print`, written to a
new stream.  `phi->print` is called without a test of the pointer.  The line break `py::print` adds, and the warning of
`get_monitor` on `cout`, are not modelled. -/
def printMonitor (g : Globals) (d : Driver) : M (List Char) :=
  let m := d.getMonitor g "phi"
  let head := "Monitor lower rob:".toList ++ (Fmt.init.num m.lowerRob ++ ['\n'])
  match m.formula with
  | some T => .ok (head ++ text Fmt.init (.formula T))
  | none => .error .ub

end Stream
end STLRom
