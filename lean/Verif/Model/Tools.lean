import Verif.Model.Driver

/-!
# Text and numbers

Model of `include/tools.h`, `src/tools.cpp`, the interval and constant constructors that
read numbers, and the trace files of `src/stl_driver.cpp`.

`istream >> double` is the C++ library's number reader (`num_get`): it is modelled on the
decimal notation it accepts, with exact values; overflow is left out.
-/

namespace STLRom
namespace Text

/-- The characters `>>` skips (the C locale's white space). -/
def isBlank (c : Char) : Bool :=
  c == ' ' || c == '\t' || c == '\n' || c == '\r' || c == '\x0b' || c == '\x0c'

/-- Digits at the head of a text, and the rest. -/
def digits : List Char → List Char × List Char
  | [] => ([], [])
  | c :: s => if c.isDigit then ((c :: (digits s).1), (digits s).2) else ([], c :: s)

/-- The number written by decimal digits. -/
def natOf (ds : List Char) : ℕ := ds.foldl (fun n c => 10 * n + (c.toNat - 48)) 0

/-- An optional sign at the head of a text: is it a minus, and the rest. -/
def signed : List Char → Bool × List Char
  | '-' :: s => (true, s)
  | '+' :: s => (false, s)
  | s => (false, s)

/-- What `num_get` accumulates at the head of a text (a sign, digits with one point, and an
exponent if digits came before it) and the value: `none` if the accumulated text is not a
number (no digit, or an exponent without digits). -/
def number (s : List Char) : Option ℚ × List Char :=
  let (neg, s) := signed s
  let (d1, s) := digits s
  let (d2, s) : List Char × List Char :=
    match s with
    | '.' :: s => digits s
    | s => ([], s)
  let mant : ℚ := (natOf (d1 ++ d2) : ℚ) / 10 ^ d2.length
  let mant := if neg then -mant else mant
  let ok := !(d1 ++ d2).isEmpty
  match s with
  | e :: s' =>
    if ok && (e == 'e' || e == 'E') then
      let (eneg, s') := signed s'
      let (d3, s') := digits s'
      (if d3.isEmpty then none
       else some (if eneg then mant / 10 ^ natOf d3 else mant * 10 ^ natOf d3), s')
    else (if ok then some mant else none, e :: s')
  | [] => (if ok then some mant else none, [])

/-- `s_to_d` (include/tools.h:20-31): the value if the whole string is a number, after
leading white space. -/
def sToD (s : String) : Option ℚ :=
  match number (s.toList.dropWhile isBlank) with
  | (some v, []) => some v
  | _ => none

/-- What `x` holds after `s_to_d(s, x)`: 0 if nothing was read (include/tools.h:24-26; since
C++11 a failed extraction stores 0), the value read even when text is left over. -/
def sToDVal (s : String) : ℚ := ((number (s.toList.dropWhile isBlank)).1).getD 0

/-- The constructor `interval(string, string)` (src/interval.cpp:16-21). -/
def mkIval (b e : String) : Ival :=
  ⟨sToDVal b, sToDVal e, if (sToD b).isSome then "" else b, if (sToD e).isSome then "" else e⟩

/-- The constructor `constant_transducer(const string&)` (src/stl_atom.cpp:17-22): `td_idx` is
left uninitialised (include/signal_expr.h:78-90). -/
def mkConst (p : String) : Tr :=
  .const .init (if (sToD p).isSome then "" else p) (sToDVal p) none

/-! ## Signal names -/

/-- The loop of `signal_map_to_string` filling `signames` (src/tools.cpp:52-57): an index
outside the array is undefined behaviour. -/
def fillNames : Assoc ℕ → List String → M (List String)
  | [], a => .ok a
  | (s, i) :: l, a =>
    if 1 ≤ i ∧ i ≤ a.length then fillNames l (a.set (i - 1) s) else .error .ub

/-- `signal_map_to_string` (src/tools.cpp:43-65), called by `STLDriver::get_signals_names`
(src/stl_driver.cpp:191-194): with no signals, `signames[0]` is undefined behaviour. -/
def signalNames (m : Assoc ℕ) : M String :=
  match fillNames m (List.replicate m.length "") with
  | .error f => .error f
  | .ok [] => .error .ub
  | .ok (s :: l) => .ok (l.foldl (fun out s => out ++ (" " ++ s)) s)

/-! ## Trace files -/

/-- A value stored in a trace read from a file; `none` is an indeterminate value
(`double val;` never assigned, src/tools.cpp:121-123): using it is undefined behaviour. -/
abbrev Cell := Option ℚ

/-- The loop of `read_trace` over one line (src/tools.cpp:119-124).  Reading a number up to
the end of the line sets `eofbit`; only blanks left makes `>>` fail and leaves `val`
unassigned; any other failure sets `failbit` alone, after which the loop never ends (`none`).
The first argument bounds the number of iterations; `readRow` gives more than there are. -/
def readRowAux : ℕ → List Char → Option (List Cell)
  | 0, _ => none
  | n + 1, s =>
    match s.dropWhile isBlank with
    | [] => some [none]
    | c :: s' =>
      match number (c :: s') with
      | (v, []) => some [some (v.getD 0)]
      | (some v, rest) => (readRowAux n rest).map (some v :: ·)
      | (none, _) => none

def readRow (line : List Char) : Option (List Cell) := readRowAux (line.length + 1) line

/-- Splitting at newlines; a last line without newline is dropped because `getline` then
sets `eofbit` (src/tools.cpp:117). -/
def linesAux (line : List Char) : List Char → List (List Char)
  | [] => []
  | c :: s => if c = '\n' then line.reverse :: linesAux [] s else linesAux (c :: line) s

def lines (file : List Char) : List (List Char) := linesAux [] file

/-- `read_trace` (src/tools.cpp:106-130) on the contents of a file. -/
def readTrace (file : List Char) : Option (List (List Cell)) := (lines file).mapM readRow

/-- `STLDriver::dump_trace_file` (src/stl_driver.cpp:565-585); `fmt` is `ofs << double`. -/
def dumpTrace (fmt : ℚ → List Char) (data : List (List ℚ)) : List Char :=
  data.flatMap fun row => row.flatMap (fun x => fmt x ++ [' ']) ++ ['\n']

/-! ## Random traces -/

/-- `rand_trace_data` (src/tools.cpp:27-41): `rand k` is the result of the `k`-th call of
`rand()` and `top` is `RAND_MAX`; 0.1 is exact. -/
def randTrace (rand : ℕ → ℕ) (top : ℕ) (m n : ℤ) : List (List ℚ) :=
  (List.range m.toNat).map fun i =>
    ((i : ℕ) : ℚ) * (1 / 10) ::
      (List.range n.toNat).map fun j => ((rand (i * n.toNat + j) : ℕ) : ℚ) / (top : ℚ)

end Text
end STLRom
