import Verif.Model.Monitor

/-!
# The operations on signals with rounding

`Model/Signal.lean` and `Model/Robust.lean` read a `double` as an exact rational.  Here the same
functions are written with a function `rd` that rounds the result of every addition, subtraction,
multiplication and division, in the order in which the C++ code performs them.  `rd` is a parameter;
`Fp.dbl` of `Model/Double.lean` is the rounding of IEEE 754 `double`s.  Functions without arithmetic
(`fmin`, `computeNot`, `skip`, ...) are those of the exact model.  With `rd := id` every function here
is the exact one (`Proofs/Rounded.lean`).

Simplifications: no overflow, division by zero is the outcome `Fault.nonfinite`; no contraction of
`a * b + c` into one rounding (a compiler may do this on some processors).
-/

namespace STLRom
namespace Fp
open Signal

/-- Rounded division; dividing by zero gives an infinity or a NaN. -/
def qdiv (rd : ℚ → ℚ) (a b : ℚ) : M ℚ := if b = 0 then .error .nonfinite else .ok (rd (a / b))

/-- `Sample::valueAt` (include/signal.h:46-49). -/
def valueAt (rd : ℚ → ℚ) (p : Sample) (t : ℚ) : ℚ := rd (p.value + rd (p.derivative * rd (t - p.time)))

/-- `Sample::timeIntersect` (include/signal.h:51-54). -/
def timeIntersect (rd : ℚ → ℚ) (p q : Sample) : M ℚ :=
  qdiv rd (rd (rd (rd (p.value - q.value) + rd (q.derivative * q.time)) - rd (p.derivative * p.time)))
    (rd (q.derivative - p.derivative))

/-- `Signal::appendSample(double t, double v, double d)` (src/signal.cpp:71-108);
`ip` is the static `Signal::interpol`. -/
def appendSample (rd : ℚ → ℚ) (ip : Interpol) (x : Signal) (t v d : ℚ) : M Signal :=
  if t ≤ x.endTime ∧ x.samples ≠ [] then .ok x
  else
    match ip with
    | .PREVIOUS =>
      if x.samples = [] then .ok ⟨[⟨t, v, 0⟩], t, t⟩
      else .ok ⟨x.samples ++ [⟨t, v, 0⟩], x.beginTime, t⟩
    | .LINEAR =>
      match x.samples.getLast? with
      | none => .ok ⟨[⟨t, v, d⟩], t, t⟩
      | some b => do
        let d' ← qdiv rd (rd (v - b.value)) (rd (t - b.time))
        .ok ⟨setBackDerivative x.samples d' ++ [⟨t, v, d⟩], x.beginTime, t⟩

/-- `Signal::appendSample(double t, double v)` (src/signal.cpp:67-69): derivative 0. -/
def appendSample0 (rd : ℚ → ℚ) (ip : Interpol) (x : Signal) (t v : ℚ) : M Signal :=
  appendSample rd ip x t v 0

/-- The loop of `Signal::simplify` (src/signal.cpp:131-136) on the deque.
`fuel` bounds the number of iterations. -/
def simplifyLoop (rd : ℚ → ℚ) (beginTime : ℚ) : ℕ → List Sample → M (List Sample)
  | _, [] => .error .ub
  | 0, f :: r => if f.time = beginTime then .ok (f :: r) else .error .fuel
  | n + 1, f :: r =>
    if f.time = beginTime then .ok (f :: r)
    else
      match (f :: r).getLast? with
      | none => .error .ub
      | some b =>
        if valueAt rd b f.time ≠ f.value ∨ b.derivative ≠ f.derivative then
          simplifyLoop rd beginTime n (r ++ [f])
        else simplifyLoop rd beginTime n r

/-- `Signal::simplify` (src/signal.cpp:121-144). -/
def simplify (rd : ℚ → ℚ) (x : Signal) : M Signal :=
  match x.samples with
  | [] => .error .ub
  | p :: r => do
    let l ← simplifyLoop rd x.beginTime (r.length + 1) (r ++ [p])
    match l.getLast? with
    | none => .error .ub
    | some b =>
      if b.time < x.endTime then
        .ok { x with samples := l ++ [⟨x.endTime, valueAt rd b x.endTime, 0⟩] }
      else .ok { x with samples := l }

/-- Front half of `Signal::resize` (src/signal.cpp:169-193): trims the signal to
start at `s`, or extends it to the front by a constant piece.  When every sample is
popped the new sample gets derivative 0, whatever the slope of the last sample was.
`front()` of an empty signal is undefined behaviour. -/
def resizeFront (rd : ℚ → ℚ) (x : Signal) (s : ℚ) : M Signal :=
  if s < x.beginTime then
    match x.samples with
    | [] => .error .ub
    | p :: _ => .ok ⟨⟨s, p.value, 0⟩ :: x.samples, x.beginTime, x.endTime⟩
  else
    match trimFront s Sample.zero x.samples with
    | (first, []) =>
      .ok ⟨[⟨s, valueAt rd first s, 0⟩], x.beginTime, if x.endTime < s then s else x.endTime⟩
    | (first, p :: r) =>
      if s < p.time then
        .ok ⟨⟨s, valueAt rd first s, first.derivative⟩ :: p :: r, x.beginTime, x.endTime⟩
      else .ok ⟨p :: r, x.beginTime, x.endTime⟩

/-- `Signal::resize` (src/signal.cpp:146-215). -/
def resize (rd : ℚ → ℚ) (x : Signal) (s t v : ℚ) : M Signal :=
  if t < rd (s - rd tol) then .ok ⟨[], 0, 0⟩
  else do
    let x1 ← resizeFront rd x s
    resizeBack x1 s (if t < s then s else t) v

/-- `Signal::shift` (src/signal.cpp:217-226). -/
def shift (rd : ℚ → ℚ) (x : Signal) (a : ℚ) : Signal :=
  ⟨x.samples.map fun p => ⟨rd (p.time + a), p.value, p.derivative⟩, rd (x.beginTime + a), rd (x.endTime + a)⟩

/-- The loop of `computeSegmentAnd`
(src/robustness.cpp:936-979).  The list is the reverse-iterator range starting
at `j`; `j->time` on an empty range is undefined behaviour. -/
def segmentAndLoop (rd : ℚ → ℚ) (i : Sample) : List Sample → ℚ → Bool → List Sample →
    M (List Sample × ℚ × Bool × List Sample)
  | _, _, _, [] => .error .ub
  | z, t, continued, j :: js =>
    if i.time < j.time then
      if valueAt rd i t < valueAt rd j t then
        if valueAt rd i j.time > j.value then do
          let t' ← timeIntersect rd i j
          segmentAndLoop rd i
            (⟨j.time, j.value, j.derivative⟩ :: ⟨t', valueAt rd i t', i.derivative⟩ :: z)
            j.time false js
        else segmentAndLoop rd i z j.time true js
      else if valueAt rd i t = valueAt rd j t then
        if valueAt rd i j.time > j.value then
          let z' := if continued then ⟨t, valueAt rd i t, i.derivative⟩ :: z else z
          segmentAndLoop rd i (⟨j.time, j.value, j.derivative⟩ :: z') j.time false js
        else segmentAndLoop rd i z j.time true js
      else
        if valueAt rd i j.time < j.value then do
          let z' := if continued then ⟨t, valueAt rd i t, i.derivative⟩ :: z else z
          let t' ← timeIntersect rd i j
          segmentAndLoop rd i (⟨t', valueAt rd j t', j.derivative⟩ :: z') j.time true js
        else
          let z' := if continued then ⟨t, valueAt rd i t, i.derivative⟩ :: z else z
          segmentAndLoop rd i (⟨j.time, j.value, j.derivative⟩ :: z') j.time false js
    else .ok (z, t, continued, j :: js)

/-- The part of `computeSegmentAnd` after the loop (src/robustness.cpp:981-1015). -/
def segmentAndLast (rd : ℚ → ℚ) (i : Sample) (z : List Sample) (t : ℚ) (continued : Bool) (j : Sample) :
    M (List Sample) :=
  let s := i.time
  if valueAt rd i t < valueAt rd j t then
    if i.value > valueAt rd j s then do
      let t' ← timeIntersect rd i j
      .ok (⟨s, valueAt rd j s, j.derivative⟩ :: ⟨t', valueAt rd i t', i.derivative⟩ :: z)
    else .ok (i :: z)
  else if valueAt rd i t = valueAt rd j t then
    if i.value > valueAt rd j s then
      let z' := if continued then ⟨t, valueAt rd i t, i.derivative⟩ :: z else z
      .ok (⟨s, valueAt rd j s, j.derivative⟩ :: z')
    else .ok (i :: z)
  else
    if i.value < valueAt rd j s then do
      let z' := if continued then ⟨t, valueAt rd i t, i.derivative⟩ :: z else z
      let t' ← timeIntersect rd i j
      .ok (i :: ⟨t', valueAt rd j t', j.derivative⟩ :: z')
    else
      let z' := if continued then ⟨t, valueAt rd i t, i.derivative⟩ :: z else z
      .ok (⟨s, valueAt rd j s, j.derivative⟩ :: z')

/-- `computeSegmentAnd` (src/robustness.cpp:934-1017).  Returns the new content of
`z` and the new position of the iterator `j` (a reference parameter). -/
def segmentAnd (rd : ℚ → ℚ) (z : List Sample) (i : Sample) (t : ℚ) (js : List Sample) :
    M (List Sample × List Sample) := do
  let (z, t, continued, js) ← segmentAndLoop rd i z t false js
  match js with
  | [] => .error .ub
  | j :: js' => do
    let z ← segmentAndLast rd i z t continued j
    .ok (z, j :: js')

/-- `computePartialAnd` (src/robustness.cpp:1021-1037). -/
def partialAnd (rd : ℚ → ℚ) (s : ℚ) : List Sample → List Sample → List Sample → ℚ → M (List Sample)
  | _, [], _, _ => .error .ub
  | z, i :: is, js, t =>
    if s < i.time then do
      let (z, js) ← segmentAnd rd z i t js
      match js with
      | [] => .error .ub
      | j :: js' => partialAnd rd s z is (if j.time = i.time then js' else j :: js') i.time
    else if i.time = s then do
      let (z, _) ← segmentAnd rd z i t js
      .ok z
    else do
      let (z, _) ← segmentAnd rd z ⟨s, valueAt rd i s, i.derivative⟩ t js
      .ok z

/-- The loop of `computeSegmentOr`
(src/robustness.cpp:1047-1090).  The list is the reverse-iterator range starting
at `j`; `j->time` on an empty range is undefined behaviour. -/
def segmentOrLoop (rd : ℚ → ℚ) (i : Sample) : List Sample → ℚ → Bool → List Sample →
    M (List Sample × ℚ × Bool × List Sample)
  | _, _, _, [] => .error .ub
  | z, t, continued, j :: js =>
    if i.time < j.time then
      if valueAt rd i t > valueAt rd j t then
        if valueAt rd i j.time < j.value then do
          let t' ← timeIntersect rd i j
          segmentOrLoop rd i
            (⟨j.time, j.value, j.derivative⟩ :: ⟨t', valueAt rd i t', i.derivative⟩ :: z)
            j.time false js
        else segmentOrLoop rd i z j.time true js
      else if valueAt rd i t = valueAt rd j t then
        if valueAt rd i j.time < j.value then
          let z' := if continued then ⟨t, valueAt rd i t, i.derivative⟩ :: z else z
          segmentOrLoop rd i (⟨j.time, j.value, j.derivative⟩ :: z') j.time false js
        else segmentOrLoop rd i z j.time true js
      else
        if valueAt rd i j.time > j.value then do
          let z' := if continued then ⟨t, valueAt rd i t, i.derivative⟩ :: z else z
          let t' ← timeIntersect rd i j
          segmentOrLoop rd i (⟨t', valueAt rd j t', j.derivative⟩ :: z') j.time true js
        else
          let z' := if continued then ⟨t, valueAt rd i t, i.derivative⟩ :: z else z
          segmentOrLoop rd i (⟨j.time, j.value, j.derivative⟩ :: z') j.time false js
    else .ok (z, t, continued, j :: js)

/-- The part of `computeSegmentOr` after the loop (src/robustness.cpp:1092-1126). -/
def segmentOrLast (rd : ℚ → ℚ) (i : Sample) (z : List Sample) (t : ℚ) (continued : Bool) (j : Sample) :
    M (List Sample) :=
  let s := i.time
  if valueAt rd i t > valueAt rd j t then
    if i.value < valueAt rd j s then do
      let t' ← timeIntersect rd i j
      .ok (⟨s, valueAt rd j s, j.derivative⟩ :: ⟨t', valueAt rd i t', i.derivative⟩ :: z)
    else .ok (i :: z)
  else if valueAt rd i t = valueAt rd j t then
    if i.value < valueAt rd j s then
      let z' := if continued then ⟨t, valueAt rd i t, i.derivative⟩ :: z else z
      .ok (⟨s, valueAt rd j s, j.derivative⟩ :: z')
    else .ok (i :: z)
  else
    if i.value > valueAt rd j s then do
      let z' := if continued then ⟨t, valueAt rd i t, i.derivative⟩ :: z else z
      let t' ← timeIntersect rd i j
      .ok (i :: ⟨t', valueAt rd j t', j.derivative⟩ :: z')
    else
      let z' := if continued then ⟨t, valueAt rd i t, i.derivative⟩ :: z else z
      .ok (⟨s, valueAt rd j s, j.derivative⟩ :: z')

/-- `computeSegmentOr` (src/robustness.cpp:1045-1128).  Returns the new content of
`z` and the new position of the iterator `j` (a reference parameter). -/
def segmentOr (rd : ℚ → ℚ) (z : List Sample) (i : Sample) (t : ℚ) (js : List Sample) :
    M (List Sample × List Sample) := do
  let (z, t, continued, js) ← segmentOrLoop rd i z t false js
  match js with
  | [] => .error .ub
  | j :: js' => do
    let z ← segmentOrLast rd i z t continued j
    .ok (z, j :: js')

/-- `computePartialOr` (src/robustness.cpp:1131-1158). -/
def partialOr (rd : ℚ → ℚ) (s : ℚ) : List Sample → List Sample → List Sample → ℚ → M (List Sample)
  | _, [], _, _ => .error .ub
  | z, i :: is, js, t =>
    if s < i.time then do
      let (z, js) ← segmentOr rd z i t js
      match js with
      | [] => .error .ub
      | j :: js' => partialOr rd s z is (if j.time = i.time then js' else j :: js') i.time
    else if i.time = s then do
      let (z, _) ← segmentOr rd z i t js
      .ok z
    else do
      let (z, _) ← segmentOr rd z ⟨s, valueAt rd i s, i.derivative⟩ t js
      .ok z

/-- `Signal::compute_and` (src/robustness.cpp:117-134). -/
def computeAndM (rd : ℚ → ℚ) (x y : Signal) : M Signal := do
  let b := fmax x.beginTime y.beginTime
  let e := fmin x.endTime y.endTime
  let is ← skipGuarded e x.samples.reverse
  let js ← skipGuarded e y.samples.reverse
  let z ← partialAnd rd b [] is js e
  simplify rd ⟨z, b, e⟩

/-- `Signal::compute_or` (src/robustness.cpp:136-153). -/
def computeOrM (rd : ℚ → ℚ) (x y : Signal) : M Signal := do
  let b := fmax x.beginTime y.beginTime
  let e := fmin x.endTime y.endTime
  let is ← skipGuarded e x.samples.reverse
  let js ← skipGuarded e y.samples.reverse
  let z ← partialOr rd b [] is js e
  simplify rd ⟨z, b, e⟩

/-- `Signal::compute_implies` (src/robustness.cpp:155-162). -/
def computeImpliesM (rd : ℚ → ℚ) (x y : Signal) : M Signal := computeOrM rd (computeNot x) y

/-- `computeAnd` (src/robustness.cpp:672-691): as `compute_and` but the skipping
loops are unguarded. -/
def computeAnd (rd : ℚ → ℚ) (x y : Signal) : M Signal := do
  let b := fmax x.beginTime y.beginTime
  let e := fmin x.endTime y.endTime
  let is ← skip e x.samples.reverse
  let js ← skip e y.samples.reverse
  let z ← partialAnd rd b [] is js e
  simplify rd ⟨z, b, e⟩

/-- `computeOr` (src/robustness.cpp:693-736). -/
def computeOr (rd : ℚ → ℚ) (x y : Signal) : M Signal := do
  let b := fmax x.beginTime y.beginTime
  let e := fmin x.endTime y.endTime
  let is ← skip e x.samples.reverse
  let js ← skip e y.samples.reverse
  let z ← partialOr rd b [] is js e
  simplify rd ⟨z, b, e⟩

/-- `computePartialEventually` (src/robustness.cpp:1165-1223), from the state
`(z, i, t, continued, z_max)` at the loop head.  Returns the new `z` and the new
position of the iterator `i` (a reference parameter). -/
def partialEventually (rd : ℚ → ℚ) (s : ℚ) : List Sample → List Sample → ℚ → Bool → ℚ →
    M (List Sample × List Sample)
  | _, [], _, _, _ => .error .ub
  | z, i :: is, t, continued, zmax =>
    if s < i.time then
      if 0 ≤ i.derivative then
        if zmax < valueAt rd i t then
          let z' := if continued then ⟨t, zmax, 0⟩ :: z else z
          partialEventually rd s z' is i.time true (valueAt rd i t)
        else partialEventually rd s z is i.time true zmax
      else if zmax ≤ valueAt rd i t then
        let z' := if continued then ⟨t, zmax, 0⟩ :: z else z
        partialEventually rd s (i :: z') is i.time false i.value
      else if i.value ≤ zmax then
        partialEventually rd s z is i.time true zmax
      else do
        let d ← qdiv rd (rd (zmax - i.value)) i.derivative
        partialEventually rd s (i :: ⟨rd (i.time + d), zmax, 0⟩ :: z) is i.time false i.value
    else
      if 0 ≤ i.derivative then
        if zmax < valueAt rd i t then
          let z' := if continued then ⟨t, zmax, 0⟩ :: z else z
          .ok (⟨s, valueAt rd i t, 0⟩ :: z', i :: is)
        else .ok (⟨s, zmax, 0⟩ :: z, i :: is)
      else if zmax ≤ valueAt rd i t then
        let z' := if continued then ⟨t, zmax, 0⟩ :: z else z
        .ok (⟨s, valueAt rd i s, i.derivative⟩ :: z', i :: is)
      else if valueAt rd i s ≤ zmax then
        .ok (⟨s, zmax, 0⟩ :: z, i :: is)
      else do
        let d ← qdiv rd (rd (zmax - i.value)) i.derivative
        .ok (⟨s, valueAt rd i s, i.derivative⟩ :: ⟨rd (s + d), zmax, 0⟩ :: z, i :: is)

/-- `computeEventually` (src/robustness.cpp:752-772). -/
def computeEventually (rd : ℚ → ℚ) (B : ℚ) (x : Signal) : M Signal := do
  let (z, _) ← partialEventually rd x.beginTime [] x.samples.reverse x.endTime false (-B)
  .ok ⟨z, x.beginTime, x.endTime⟩

/-- `computeGlobally` (src/robustness.cpp:775-791). -/
def computeGlobally (rd : ℚ → ℚ) (B : ℚ) (x : Signal) : M Signal := do
  let z2 ← computeEventually rd B (computeNot x)
  .ok (computeNot z2)

/-- The precomputation loop of `plateauMax` (src/robustness.cpp:1294-1301): the
list argument is the reverse range of `x`; `y` accumulates. -/
def peaksMax (rd : ℚ → ℚ) : List Sample → ℚ → ℚ → List Point → List Point
  | [], _, _, y => y
  | j :: js, t, v, y => peaksMax rd js j.time j.value (⟨t, fmax v (valueAt rd j t)⟩ :: y)

/-- One pass of the `while (cont)` loop of `plateauMax`
(src/robustness.cpp:1340-1441).  State: candidate list `m`, remaining points
`is`, output `z` (reversed: `push_back` is `::`), `t`, and the two flags. -/
def plateauMaxLoop (rd : ℚ → ℚ) (B a : ℚ) : ℕ → List Point → List Point → List Sample → ℚ → Bool → Bool →
    M (List Sample)
  | 0, _, _, _, _, _, _ => .error .fuel
  | n + 1, m, is, z, t, newC, endC => do
    -- candidate crosses t: remove it from list
    let m1 ← popFront endC m
    -- sample crosses t+a: add it to candidate list
    let (m2, is2) ← enterMax newC m1 is
    -- output of new maximum
    let z2 := ⟨t, frontVal (-B) m2, 0⟩ :: z
    -- next event detection
    match m2, is2 with
    | p :: _, i :: _ =>
      if rd (i.time - a) = p.time then plateauMaxLoop rd B a n m2 is2 z2 p.time true true
      else if rd (i.time - a) < p.time then plateauMaxLoop rd B a n m2 is2 z2 (rd (i.time - a)) true false
      else plateauMaxLoop rd B a n m2 is2 z2 p.time false true
    | p :: _, [] => plateauMaxLoop rd B a n m2 is2 z2 p.time false true
    | [], i :: _ => plateauMaxLoop rd B a n m2 is2 z2 (rd (i.time - a)) true false
    | [], [] => .ok z2

/-- `plateauMax` (src/robustness.cpp:1275-1452). -/
def plateauMax (rd : ℚ → ℚ) (B : ℚ) (x : Signal) (a : ℚ) : M Signal :=
  match x.samples with
  | [] => .error .ub
  | f :: _ => do
    let y := ⟨f.time, f.value⟩ :: peaksMax rd x.samples.reverse x.endTime (-B) []
    let (m, is) ← initMax (rd (x.beginTime + a)) [] y
    match is with
    | [] => .error .ub
    | i :: _ => do
      let z ← plateauMaxLoop rd B a (2 * y.length + 2) m is [] x.beginTime
        (decide (i.time = rd (x.beginTime + a))) false
      match z with
      | [] => .error .ub
      | p :: z' =>
        .ok ⟨(if p.time = x.endTime then z' else p :: z').reverse, x.beginTime, x.endTime⟩

/-- The precomputation loop of `plateauMin` (src/robustness.cpp:1472-1479). -/
def peaksMin (rd : ℚ → ℚ) : List Sample → ℚ → ℚ → List Point → List Point
  | [], _, _, y => y
  | j :: js, t, v, y => peaksMin rd js j.time j.value (⟨t, fmin v (valueAt rd j t)⟩ :: y)

/-- One pass of the `while (cont)` loop of `plateauMin`
(src/robustness.cpp:1500-1574). -/
def plateauMinLoop (rd : ℚ → ℚ) (B a : ℚ) : ℕ → List Point → List Point → List Sample → ℚ → Bool → Bool →
    M (List Sample)
  | 0, _, _, _, _, _, _ => .error .fuel
  | n + 1, m, is, z, t, newC, endC => do
    let m1 ← popFront endC m
    let (m2, is2) ← enterMin newC m1 is
    let z2 := ⟨t, frontVal B m2, 0⟩ :: z
    match m2, is2 with
    | p :: _, i :: _ =>
      if rd (i.time - a) = p.time then plateauMinLoop rd B a n m2 is2 z2 p.time true true
      else if rd (i.time - a) < p.time then plateauMinLoop rd B a n m2 is2 z2 (rd (i.time - a)) true false
      else plateauMinLoop rd B a n m2 is2 z2 p.time false true
    | p :: _, [] => plateauMinLoop rd B a n m2 is2 z2 p.time false true
    | [], i :: _ => plateauMinLoop rd B a n m2 is2 z2 (rd (i.time - a)) true false
    | [], [] => .ok z2

/-- `plateauMin` (src/robustness.cpp:1456-1579). -/
def plateauMin (rd : ℚ → ℚ) (B : ℚ) (x : Signal) (a : ℚ) : M Signal :=
  match x.samples with
  | [] => .error .ub
  | f :: _ => do
    let y := ⟨f.time, f.value⟩ :: peaksMin rd x.samples.reverse x.endTime B []
    let (m, is) ← initMin (rd (x.beginTime + a)) [] y
    match is with
    | [] => .error .ub
    | i :: _ => do
      let z ← plateauMinLoop rd B a (2 * y.length + 2) m is [] x.beginTime
        (decide (i.time = rd (x.beginTime + a))) false
      match z with
      | [] => .error .ub
      | p :: z' =>
        .ok ⟨(if p.time = x.endTime then z' else p :: z').reverse, x.beginTime, x.endTime⟩

/-- `computeBoundedEventually` (src/robustness.cpp:842-871). -/
def computeBoundedEventually (rd : ℚ → ℚ) (B : ℚ) (x : Signal) (a : ℚ) : M Signal := do
  let z1 ← plateauMax rd B x a
  let z2 ← resize rd x (rd (x.beginTime + a)) (rd (x.endTime + a)) (-B)
  let z3 ← computeOr rd (shift rd z2 (-a)) z1
  let z ← computeOr rd x z3
  simplify rd z

/-- `computeBoundedGlobally` (src/robustness.cpp:873-900). -/
def computeBoundedGlobally (rd : ℚ → ℚ) (B : ℚ) (x : Signal) (a : ℚ) : M Signal := do
  let z1 ← plateauMin rd B x a
  let z2 ← resize rd x (rd (x.beginTime + a)) (rd (x.endTime + a)) B
  let z3 ← computeAnd rd (shift rd z2 (-a)) z1
  let z ← computeAnd rd x z3
  simplify rd z

/-- `Signal::compute_timed_eventually` (src/robustness.cpp:268-307); `old` is
the previous content of the target: on an empty `x` the target's samples are
cleared but its `beginTime` and `endTime` are kept. -/
def computeTimedEventually (rd : ℚ → ℚ) (B : ℚ) (old x : Signal) (a b : ℚ) : M Signal :=
  if x.samples = [] then .ok { old with samples := [] }
  else
    let y := if 0 < a then shift rd x (-a) else x
    if rd (b - a) ≤ 0 then .ok y
    else if rd (y.endTime - y.beginTime) ≤ rd (b - a) then computeEventually rd B y
    else computeBoundedEventually rd B y (rd (b - a))

/-- `Signal::compute_timed_globally` (src/robustness.cpp:331-373). -/
def computeTimedGlobally (rd : ℚ → ℚ) (B : ℚ) (old x : Signal) (a b : ℚ) : M Signal :=
  if x.samples = [] then .ok { old with samples := [] }
  else
    let y := if 0 < a then shift rd x (-a) else x
    if rd (b - a) ≤ 0 then .ok y
    else if rd (y.endTime - y.beginTime) ≤ rd (b - a) then computeGlobally rd B y
    else computeBoundedGlobally rd B y (rd (b - a))

/-- `computeSegmentUntil` (src/robustness.cpp:1226-1266).  Returns the new `z`
and the new position of the iterator `j` (a reference parameter). -/
def segmentUntil (rd : ℚ → ℚ) (B : ℚ) (z : List Sample) (i : Sample) (t : ℚ) (js : List Sample) (zmax : ℚ) :
    M (List Sample × List Sample) :=
  let s := i.time
  if i.derivative ≤ 0 then do
    let (z1, js') ← segmentAnd rd [] i t js
    let (z2, _) ← partialEventually rd s [] z1.reverse t false (-B)
    let (z', _) ← segmentOr rd z ⟨s, fmin zmax (valueAt rd i t), 0⟩ t z2.reverse
    .ok (z', js')
  else do
    let (z1, js') ← partialEventually rd s [] js t false (-B)
    let (z2, _) ← segmentAnd rd [] i t z1.reverse
    let (z1', _) ← segmentAnd rd [] i t [⟨s, zmax, 0⟩]
    let z' ← partialOr rd s z z1'.reverse z2.reverse t
    .ok (z', js')

/-- The main loop of `computeUntil` (src/robustness.cpp:818-833). -/
def untilLoop (rd : ℚ → ℚ) (B s : ℚ) : List Sample → List Sample → List Sample → ℚ → ℚ → M (List Sample)
  | _, [], _, _, _ => .error .ub
  | z, i :: is, js, t, zmax =>
    if s < i.time then do
      let (z, js) ← segmentUntil rd B z i t js zmax
      match z, js with
      | f :: _, j :: js' =>
        untilLoop rd B s z is (if j.time = i.time then js' else j :: js') i.time f.value
      | _, _ => .error .ub
    else if i.time = s then do
      let (z, _) ← segmentUntil rd B z i t js zmax
      .ok z
    else do
      let (z, _) ← segmentUntil rd B z ⟨s, valueAt rd i s, i.derivative⟩ t js zmax
      .ok z

/-- `computeUntil` (src/robustness.cpp:794-840). -/
def computeUntil (rd : ℚ → ℚ) (B : ℚ) (x y : Signal) : M Signal := do
  let b := fmax x.beginTime y.beginTime
  let e := fmin x.endTime y.endTime
  let is ← skip e x.samples.reverse
  let js ← skip e y.samples.reverse
  let z ← untilLoop rd B b [] is js e (-B)
  simplify rd ⟨z, b, e⟩

/-- `computeTimedUntil` (src/robustness.cpp:903-926). -/
def computeTimedUntilF (rd : ℚ → ℚ) (B : ℚ) (x y : Signal) (a b : ℚ) : M Signal := do
  let z2 ← computeBoundedEventually rd B y (rd (b - a))
  let z3 ← computeUntil rd B x y
  let z4 ← computeAnd rd z2 z3
  if 0 < a then do
    let z1 ← computeBoundedGlobally rd B x a
    computeAnd rd z1 (shift rd z4 (-a))
  else computeAnd rd x z4

/-- `Signal::compute_timed_until` (src/robustness.cpp:375-411). -/
def computeTimedUntil (rd : ℚ → ℚ) (B : ℚ) (old x y : Signal) (a b : ℚ) : M Signal :=
  if x.samples = [] ∨ y.samples = [] then .ok { old with samples := [] }
  else if min x.endTime y.endTime < b then
    if a = 0 then computeUntil rd B x y
    else if x.endTime < a then computeGlobally rd B x
    else do
      let yalw1 ← computeBoundedGlobally rd B x a
      let yuntmp ← computeUntil rd B x y
      computeAnd rd yalw1 (shift rd yuntmp (-a))
  else computeTimedUntilF rd B x y a b

/-- The loop of `Signal::compute_boolean` (src/robustness.cpp:22-49). -/
def booleanLoop (rd : ℚ → ℚ) (endTime : ℚ) : List Sample → M (List Sample)
  | [] => .ok []
  | i :: is => do
    let next := match is with
      | [] => endTime
      | n :: _ => n.time
    let rest ← booleanLoop rd endTime is
    if 0 < i.value then
      if i.derivative < 0 then do
        let q ← qdiv rd i.value i.derivative
        let tz := rd (i.time - q)
        if tz < next then .ok (⟨i.time, 1, 0⟩ :: ⟨tz, 0, 0⟩ :: rest)
        else .ok (⟨i.time, 1, 0⟩ :: rest)
      else .ok (⟨i.time, 1, 0⟩ :: rest)
    else
      if i.value < 0 ∧ 0 < i.derivative then do
        let q ← qdiv rd i.value i.derivative
        let tz := rd (i.time - q)
        if tz < next then .ok (⟨i.time, 0, 0⟩ :: ⟨tz, 1, 0⟩ :: rest)
        else .ok (⟨i.time, 0, 0⟩ :: rest)
      else .ok (⟨i.time, 0, 0⟩ :: rest)

/-- `Signal::compute_boolean` (src/robustness.cpp:18-54). -/
def computeBoolean (rd : ℚ → ℚ) (y : Signal) : M Signal := do
  let l ← booleanLoop rd y.endTime y.samples
  let x ← simplify rd ⟨l, y.beginTime, y.endTime⟩
  match x.samples.getLast? with
  | some b => if b.time = x.endTime then .ok { x with samples := x.samples.dropLast } else .ok x
  | none => .ok x

/-- `Signal::compute_left_time_rob` (src/robustness.cpp:60-77), with
`ZERO_POS = 1e-14`, `ZERO_NEG = -1e-14`. -/
def computeLeftTimeRob (rd : ℚ → ℚ) (y : Signal) : M Signal := do
  let yb ← computeBoolean rd y
  .ok ⟨yb.samples.map fun p => if 0 < p.value then ⟨p.time, rd tol, 1⟩ else ⟨p.time, -(rd tol), -1⟩,
    y.beginTime, y.endTime⟩

/-- `Signal::compute_right_time_rob` (src/robustness.cpp:79-106).  Line 94
compares an iterator of `y_bool` with `y.end()`: undefined behaviour as soon as
the loop body runs. -/
def computeRightTimeRob (rd : ℚ → ℚ) (y : Signal) : M Signal := do
  let yb ← computeBoolean rd y
  match yb.samples with
  | [] => .ok ⟨[], y.beginTime, y.endTime⟩
  | _ :: _ => .error .ub

end Fp
end STLRom
