import Verif.Model.Stream
import Verif.Model.Tools

/-!
# Reading from the standard input

`read_point` of the Python module.
-/

namespace STLRom
namespace Text

/-- The state of `cin`: what is still to be read, up to the end of the input, or `none` once it is no longer `good()`.
Nothing in the library resets it. -/
abbrev Input := Option (List Char)

/-- `cin >> x` for a `double` (as in src/pybind11/main.cpp:26): what is assigned to `x` (`none`: nothing), and the new
state.  At the end of the input, and on a stream that is not good, nothing is assigned; a text that is not a number assigns
0 and sets `failbit`; a number up to the end of the input sets `eofbit`. -/
def extract : Input → Cell × Input
  | none => (none, none)
  | some s =>
    match s.dropWhile isBlank with
    | [] => (none, none)
    | c :: s' =>
      match number (c :: s') with
      | (v, []) => (some (v.getD 0), none)
      | (some v, rest) => (some v, some rest)
      | (none, _) => (some 0, none)

/-- `read_point` (src/pybind11/main.cpp:23-30): what is written to `cout`, of format `f`, and the new state of `cin`.
`time` and `value` are not initialised; a copy of one that was not assigned is undefined behaviour. -/
def readPoint (f : Fmt) (s : Input) : M (List Char) × Input :=
  let (t, s) := extract s
  let (v, s) := extract s
  match t, v with
  | some t, some v => (.ok ("Enter time and value\n".toList ++ Stream.text f (.printPoint t v)), s)
  | _, _ => (.error .ub, s)

/-- `n` calls of `read_point`: what each of them writes.  `print_point` leaves `cout` in its own format. -/
def readPoints : ℕ → Fmt → Input → M (List (List Char))
  | 0, _, _ => .ok []
  | n + 1, f, s => do
    let out ← (readPoint f s).1
    let rest ← readPoints n (Stream.after f (.printPoint 0 0)) (readPoint f s).2
    .ok (out :: rest)

end Text
end STLRom
