import Verif.Model.Robust

/-!
# The bounded operators of the class `Signal`

`Signal::compute_bounded_eventually`, `Signal::compute_bounded_globally` and the two plateau
members they use.  They are public and separate from the functions of the same purpose in
`Model/Robust.lean` (`computeBoundedEventually`, `plateauMax`, ...), which the monitors use.
-/

namespace STLRom
namespace Signal

/-- The output step of `Signal::compute_plateau_max` and `Signal::compute_plateau_min`
(src/robustness.cpp:496-498, 612-614): a sample is pushed only when there is a candidate and `t`
is past the time of the last sample.  `z` is the output, reversed. -/
def pushPlateau (m : List Point) (t : ℚ) (z : List Sample) : M (List Sample) :=
  match m with
  | [] => .ok z
  | p :: _ =>
    match z with
    | [] => .error .ub
    | b :: _ => .ok (if b.time < t then ⟨t, p.value, 0⟩ :: z else z)

/-- The `while (cont)` loop of `Signal::compute_plateau_max` (src/robustness.cpp:467-534); the
updates of the candidate list are those of `plateauMax`. -/
def plateauMaxMLoop (a : ℚ) : ℕ → List Point → List Point → List Sample → ℚ → Bool → Bool →
    M (List Sample)
  | 0, _, _, _, _, _, _ => .error .fuel
  | n + 1, m, is, z, t, newC, endC => do
    let m1 ← popFront endC m
    let (m2, is2) ← enterMax newC m1 is
    let z2 ← pushPlateau m2 t z
    match m2, is2 with
    | p :: _, i :: _ =>
      if i.time - a = p.time then plateauMaxMLoop a n m2 is2 z2 p.time true true
      else if i.time - a < p.time then plateauMaxMLoop a n m2 is2 z2 (i.time - a) true false
      else plateauMaxMLoop a n m2 is2 z2 p.time false true
    | p :: _, [] => plateauMaxMLoop a n m2 is2 z2 p.time false true
    | [], i :: _ => plateauMaxMLoop a n m2 is2 z2 (i.time - a) true false
    | [], [] => .ok z2

/-- `Signal::compute_plateau_max` (src/robustness.cpp:414-536); `x.front()` and `M.front()` of
empty lists are undefined behaviour, as is reading past the last point in the first loop. -/
def plateauMaxM (B : ℚ) (x : Signal) (a : ℚ) : M Signal :=
  match x.samples with
  | [] => .error .ub
  | f :: _ => do
    let y := ⟨f.time, f.value⟩ :: peaksMax x.samples.reverse x.endTime (-B) []
    let (m, is) ← initMax (x.beginTime + a) [] y
    match m, is with
    | p :: _, i :: _ => do
      let z ← plateauMaxMLoop a (2 * y.length + 2) m is [⟨x.beginTime, p.value, 0⟩] x.beginTime
        (decide (i.time = x.beginTime + a)) false
      .ok ⟨z.reverse, x.beginTime, x.endTime⟩
    | _, _ => .error .ub

/-- The `while (cont)` loop of `Signal::compute_plateau_min` (src/robustness.cpp:583-650). -/
def plateauMinMLoop (a : ℚ) : ℕ → List Point → List Point → List Sample → ℚ → Bool → Bool →
    M (List Sample)
  | 0, _, _, _, _, _, _ => .error .fuel
  | n + 1, m, is, z, t, newC, endC => do
    let m1 ← popFront endC m
    let (m2, is2) ← enterMin newC m1 is
    let z2 ← pushPlateau m2 t z
    match m2, is2 with
    | p :: _, i :: _ =>
      if i.time - a = p.time then plateauMinMLoop a n m2 is2 z2 p.time true true
      else if i.time - a < p.time then plateauMinMLoop a n m2 is2 z2 (i.time - a) true false
      else plateauMinMLoop a n m2 is2 z2 p.time false true
    | p :: _, [] => plateauMinMLoop a n m2 is2 z2 p.time false true
    | [], i :: _ => plateauMinMLoop a n m2 is2 z2 (i.time - a) true false
    | [], [] => .ok z2

/-- `Signal::compute_plateau_min` (src/robustness.cpp:539-652). -/
def plateauMinM (B : ℚ) (x : Signal) (a : ℚ) : M Signal :=
  match x.samples with
  | [] => .error .ub
  | f :: _ => do
    let y := ⟨f.time, f.value⟩ :: peaksMin x.samples.reverse x.endTime B []
    let (m, is) ← initMin (x.beginTime + a) [] y
    match m, is with
    | p :: _, i :: _ => do
      let z ← plateauMinMLoop a (2 * y.length + 2) m is [⟨x.beginTime, p.value, 0⟩] x.beginTime
        (decide (i.time = x.beginTime + a)) false
      .ok ⟨z.reverse, x.beginTime, x.endTime⟩
    | _, _ => .error .ub

/-- `Signal::compute_bounded_eventually` (src/robustness.cpp:240-266).  `z2` is a new signal, not
a copy of `x`, so `z2.resize` works on no samples.  `old` is the target before the call: on an
empty `x` its samples are cleared and its interval is kept. -/
def computeBoundedEventuallyM (B : ℚ) (old x : Signal) (a : ℚ) : M Signal :=
  if x.samples = [] then .ok { old with samples := [] }
  else do
    let z1 ← plateauMaxM B x a
    let z2 ← resize empty (x.beginTime + a) (x.endTime + a) (-B)
    let z3 ← computeOrM (shift z2 (-a)) z1
    let z ← computeOrM x z3
    simplify z

/-- `Signal::compute_bounded_globally` (src/robustness.cpp:309-329). -/
def computeBoundedGloballyM (B : ℚ) (old x : Signal) (a : ℚ) : M Signal :=
  if x.samples = [] then .ok { old with samples := [] }
  else do
    let z1 ← plateauMinM B x a
    let z2 ← resize empty (x.beginTime + a) (x.endTime + a) B
    let z3 ← computeAndM (shift z2 (-a)) z1
    let z ← computeAndM x z3
    simplify z

end Signal
end STLRom
