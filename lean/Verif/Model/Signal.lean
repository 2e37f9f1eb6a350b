import Verif.Model.Basic

/-!
# Signals

Model of `include/signal.h` and `src/signal.cpp`.
-/

namespace STLRom

/-- `class Sample` (include/signal.h:31-44), with the fields of its base
`class Point` (include/signal.h:19-29). -/
structure Sample where
  time : ℚ
  value : ℚ
  derivative : ℚ
  deriving DecidableEq, Repr

/-- `Sample::Sample()` (include/signal.h:35): all fields zero. -/
def Sample.zero : Sample := ⟨0, 0, 0⟩

/-- `Sample::valueAt` (include/signal.h:46-49). -/
def Sample.valueAt (p : Sample) (t : ℚ) : ℚ := p.value + p.derivative * (t - p.time)

/-- `Sample::timeIntersect` (include/signal.h:51-54). -/
def Sample.timeIntersect (p q : Sample) : M ℚ :=
  qdiv (p.value - q.value + (q.derivative * q.time) - (p.derivative * p.time))
    (q.derivative - p.derivative)

/-- `class Signal : public std::deque<Sample>` (include/signal.h:77-231):
the deque, front first, and the two time fields. -/
structure Signal where
  samples : List Sample
  beginTime : ℚ
  endTime : ℚ
  deriving DecidableEq, Repr

/-- `enum class Semantics` (include/signal.h:64-69). -/
inductive Semantics where
  | SPACE | LEFT_TIME | RIGHT_TIME | BOOLEAN
  deriving DecidableEq, Repr

/-- `enum class Interpol` (include/signal.h:71-74). -/
inductive Interpol where
  | PREVIOUS | LINEAR
  deriving DecidableEq, Repr

namespace Signal

/-- `Signal::Signal()` (include/signal.h:146). -/
def empty : Signal := ⟨[], 0, 0⟩

/-- `Signal::Signal(double T, double V, int n)` (src/signal.cpp:16-22). -/
def single (T V : ℚ) : Signal := ⟨[⟨T, V, 0⟩], T, T⟩

/-- `deque::front()`: undefined on an empty deque. -/
def front (x : Signal) : M Sample :=
  match x.samples with
  | [] => .error .ub
  | p :: _ => .ok p

/-- `deque::back()`: undefined on an empty deque. -/
def back (x : Signal) : M Sample :=
  match x.samples.getLast? with
  | none => .error .ub
  | some p => .ok p

/-- Writing `back().derivative`. -/
def setBackDerivative (l : List Sample) (d : ℚ) : List Sample :=
  match l.getLast? with
  | none => l
  | some p => l.dropLast ++ [⟨p.time, p.value, d⟩]

/-- `Signal::appendSample(double t, double v, double d)` (src/signal.cpp:71-108);
`ip` is the static `Signal::interpol`. -/
def appendSample (ip : Interpol) (x : Signal) (t v d : ℚ) : M Signal :=
  if t ≤ x.endTime ∧ x.samples ≠ [] then .ok x
  else
    match ip with
    | .PREVIOUS =>
      if x.samples = [] then .ok ⟨[⟨t, v, 0⟩], t, t⟩
      else .ok ⟨x.samples ++ [⟨t, v, 0⟩], x.beginTime, t⟩
    | .LINEAR =>
      match x.samples.getLast? with
      | none => .ok ⟨[⟨t, v, d⟩], t, t⟩
      | some b => do
        let d' ← qdiv (v - b.value) (t - b.time)
        .ok ⟨setBackDerivative x.samples d' ++ [⟨t, v, d⟩], x.beginTime, t⟩

/-- `Signal::appendSample(double t, double v)` (src/signal.cpp:67-69): derivative 0. -/
def appendSample0 (ip : Interpol) (x : Signal) (t v : ℚ) : M Signal :=
  appendSample ip x t v 0

/-- Loop of `Signal::appendSignal` (src/signal.cpp:110-118). -/
def appendSamples (ip : Interpol) (x : Signal) : List Sample → M Signal
  | [] => .ok x
  | p :: ps => do
    let x' ← appendSample ip x p.time p.value p.derivative
    appendSamples ip x' ps

/-- `Signal::appendSignal` (src/signal.cpp:110-118). -/
def appendSignal (ip : Interpol) (x s : Signal) : M Signal := appendSamples ip x s.samples

/-- Inner loop of the array constructor in LINEAR mode (src/signal.cpp:44-49):
consumes consecutive pairs of `(T[i], V[i])`; the last one gets derivative 0. -/
def ofArrayLinear : List (ℚ × ℚ) → M (List Sample)
  | [] => .ok []
  | [(t, v)] => .ok [⟨t, v, 0⟩]
  | (t, v) :: (t', v') :: r => do
    let d ← qdiv (v' - v) (t' - t)
    let rest ← ofArrayLinear ((t', v') :: r)
    .ok (⟨t, v, d⟩ :: rest)

/-- `Signal::Signal(double *T, double *V, int n)` (src/signal.cpp:25-60), with
the two arrays zipped.  `n = 0` reads `T[0]` out of bounds. -/
def ofArray (ip : Interpol) (tv : List (ℚ × ℚ)) : M Signal :=
  match tv, tv.getLast? with
  | (t0, _) :: _, some (tn, _) =>
    match ip with
    | .PREVIOUS => .ok ⟨tv.map fun p => ⟨p.1, p.2, 0⟩, t0, tn⟩
    | .LINEAR => do
      let l ← ofArrayLinear tv
      .ok ⟨l, t0, tn⟩
  | _, _ => .error .ub

/-- `Signal::addLastSample` (src/signal.cpp:62-65). -/
def addLastSample (x : Signal) : M Signal :=
  match x.samples.getLast? with
  | none => .error .ub
  | some b =>
    if b.time < x.endTime then
      .ok { x with samples := x.samples ++ [⟨x.endTime, b.valueAt x.endTime, 0⟩] }
    else .ok x

/-- The loop of `Signal::simplify` (src/signal.cpp:131-136) on the deque.
`fuel` bounds the number of iterations. -/
def simplifyLoop (beginTime : ℚ) : ℕ → List Sample → M (List Sample)
  | _, [] => .error .ub
  | 0, f :: r => if f.time = beginTime then .ok (f :: r) else .error .fuel
  | n + 1, f :: r =>
    if f.time = beginTime then .ok (f :: r)
    else
      match (f :: r).getLast? with
      | none => .error .ub
      | some b =>
        if b.valueAt f.time ≠ f.value ∨ b.derivative ≠ f.derivative then
          simplifyLoop beginTime n (r ++ [f])
        else simplifyLoop beginTime n r

/-- `Signal::simplify` (src/signal.cpp:121-144). -/
def simplify (x : Signal) : M Signal :=
  match x.samples with
  | [] => .error .ub
  | p :: r => do
    let l ← simplifyLoop x.beginTime (r.length + 1) (r ++ [p])
    match l.getLast? with
    | none => .error .ub
    | some b =>
      if b.time < x.endTime then
        .ok { x with samples := l ++ [⟨x.endTime, b.valueAt x.endTime, 0⟩] }
      else .ok { x with samples := l }

/-- The literal `1e-14` (src/signal.cpp:156, src/robustness.cpp:57-58). -/
def tol : ℚ := 1 / 100000000000000

/-- First loop of `Signal::resize` (src/signal.cpp:180-183): pops samples before
`s`, remembering the last one popped in `first`. -/
def trimFront (s : ℚ) (first : Sample) : List Sample → Sample × List Sample
  | [] => (first, [])
  | p :: r => if p.time < s then trimFront s p r else (first, p :: r)

/-- Second loop of `Signal::resize` (src/signal.cpp:203-205): pops samples after
`t` from the back. -/
def trimBack (t : ℚ) (l : List Sample) : List Sample :=
  (l.reverse.dropWhile fun p => decide (t < p.time)).reverse

/-- Front half of `Signal::resize` (src/signal.cpp:169-193): trims the signal to
start at `s`, or extends it to the front by a constant piece.  When every sample is
popped the new sample gets derivative 0, whatever the slope of the last sample was.
`front()` of an empty signal is undefined behaviour. -/
def resizeFront (x : Signal) (s : ℚ) : M Signal :=
  if s < x.beginTime then
    match x.samples with
    | [] => .error .ub
    | p :: _ => .ok ⟨⟨s, p.value, 0⟩ :: x.samples, x.beginTime, x.endTime⟩
  else
    match trimFront s Sample.zero x.samples with
    | (first, []) =>
      .ok ⟨[⟨s, first.valueAt s, 0⟩], x.beginTime, if x.endTime < s then s else x.endTime⟩
    | (first, p :: r) =>
      if s < p.time then
        .ok ⟨⟨s, first.valueAt s, first.derivative⟩ :: p :: r, x.beginTime, x.endTime⟩
      else .ok ⟨p :: r, x.beginTime, x.endTime⟩

/-- Back half of `Signal::resize` (src/signal.cpp:194-210): trims the signal to end
at `t`, or extends it with the value `v` from its end time on. -/
def resizeBack (x : Signal) (s t v : ℚ) : M Signal := do
  let l2 ←
    (if x.endTime < t then
      match x.samples.getLast? with
      | none => .error .ub
      | some b =>
        if b.value ≠ v ∨ b.derivative ≠ 0 then .ok (x.samples ++ [⟨x.endTime, v, 0⟩])
        else .ok x.samples
    else .ok (trimBack t x.samples) : M (List Sample))
  .ok ⟨if l2 = [] then [⟨s, v, 0⟩] else l2, s, t⟩

/-- `Signal::resize` (src/signal.cpp:146-215). -/
def resize (x : Signal) (s t v : ℚ) : M Signal :=
  if t < s - tol then .ok ⟨[], 0, 0⟩
  else do
    let x1 ← resizeFront x s
    resizeBack x1 s (if t < s then s else t) v

/-- `Signal::shift` (src/signal.cpp:217-226). -/
def shift (x : Signal) (a : ℚ) : Signal :=
  ⟨x.samples.map fun p => ⟨p.time + a, p.value, p.derivative⟩, x.beginTime + a, x.endTime + a⟩

/-- `Signal::removeInf` (src/signal.cpp:228-237); `B` is `Signal::BigM`. -/
def removeInf (B : ℚ) (x : Signal) : Signal :=
  { x with
    samples := (x.samples.reverse.dropWhile fun p =>
      decide (p.value = B ∨ p.derivative = B ∨ p.value = -B ∨ p.derivative = -B)).reverse }

end Signal
end STLRom
