import Verif.Model.Signal

/-!
# Operations on signals

Model of `src/robustness.cpp`.  A `const_reverse_iterator` is the list of the
elements from its position on, in reverse order; `z->push_front` is `::`.
The parameter `B` is the static `Signal::BigM`, so `TOP` is `B` and `BOTTOM` is
`-B` (include/signal.h:12-13).
-/

namespace STLRom
namespace Signal

/-- `fmin` macro (src/robustness.cpp:9). -/
def fmin (a b : ℚ) : ℚ := if a < b then a else b

/-- `fmax` macro (src/robustness.cpp:10). -/
def fmax (a b : ℚ) : ℚ := if b < a then a else b

/-- `Signal::compute_not` (src/robustness.cpp:108-115) and `computeNot`
(src/robustness.cpp:659-670), which build the same signal. -/
def computeNot (y : Signal) : Signal :=
  ⟨y.samples.map fun p => ⟨p.time, -p.value, -p.derivative⟩, y.beginTime, y.endTime⟩

/-! ## Conjunction and disjunction subroutines -/

/-- The loop of `computeSegmentAnd`
(src/robustness.cpp:936-979).  The list is the reverse-iterator range starting
at `j`; `j->time` on an empty range is undefined behaviour. -/
def segmentAndLoop (i : Sample) : List Sample → ℚ → Bool → List Sample →
    M (List Sample × ℚ × Bool × List Sample)
  | _, _, _, [] => .error .ub
  | z, t, continued, j :: js =>
    if i.time < j.time then
      if i.valueAt t < j.valueAt t then
        if i.valueAt j.time > j.value then do
          let t' ← i.timeIntersect j
          segmentAndLoop i
            (⟨j.time, j.value, j.derivative⟩ :: ⟨t', i.valueAt t', i.derivative⟩ :: z)
            j.time false js
        else segmentAndLoop i z j.time true js
      else if i.valueAt t = j.valueAt t then
        if i.valueAt j.time > j.value then
          let z' := if continued then ⟨t, i.valueAt t, i.derivative⟩ :: z else z
          segmentAndLoop i (⟨j.time, j.value, j.derivative⟩ :: z') j.time false js
        else segmentAndLoop i z j.time true js
      else
        if i.valueAt j.time < j.value then do
          let z' := if continued then ⟨t, i.valueAt t, i.derivative⟩ :: z else z
          let t' ← i.timeIntersect j
          segmentAndLoop i (⟨t', j.valueAt t', j.derivative⟩ :: z') j.time true js
        else
          let z' := if continued then ⟨t, i.valueAt t, i.derivative⟩ :: z else z
          segmentAndLoop i (⟨j.time, j.value, j.derivative⟩ :: z') j.time false js
    else .ok (z, t, continued, j :: js)

/-- The part of `computeSegmentAnd` after the loop (src/robustness.cpp:981-1015). -/
def segmentAndLast (i : Sample) (z : List Sample) (t : ℚ) (continued : Bool) (j : Sample) :
    M (List Sample) :=
  let s := i.time
  if i.valueAt t < j.valueAt t then
    if i.value > j.valueAt s then do
      let t' ← i.timeIntersect j
      .ok (⟨s, j.valueAt s, j.derivative⟩ :: ⟨t', i.valueAt t', i.derivative⟩ :: z)
    else .ok (i :: z)
  else if i.valueAt t = j.valueAt t then
    if i.value > j.valueAt s then
      let z' := if continued then ⟨t, i.valueAt t, i.derivative⟩ :: z else z
      .ok (⟨s, j.valueAt s, j.derivative⟩ :: z')
    else .ok (i :: z)
  else
    if i.value < j.valueAt s then do
      let z' := if continued then ⟨t, i.valueAt t, i.derivative⟩ :: z else z
      let t' ← i.timeIntersect j
      .ok (i :: ⟨t', j.valueAt t', j.derivative⟩ :: z')
    else
      let z' := if continued then ⟨t, i.valueAt t, i.derivative⟩ :: z else z
      .ok (⟨s, j.valueAt s, j.derivative⟩ :: z')

/-- `computeSegmentAnd` (src/robustness.cpp:934-1017).  Returns the new content of
`z` and the new position of the iterator `j` (a reference parameter). -/
def segmentAnd (z : List Sample) (i : Sample) (t : ℚ) (js : List Sample) :
    M (List Sample × List Sample) := do
  let (z, t, continued, js) ← segmentAndLoop i z t false js
  match js with
  | [] => .error .ub
  | j :: js' => do
    let z ← segmentAndLast i z t continued j
    .ok (z, j :: js')

/-- `computePartialAnd` (src/robustness.cpp:1021-1037). -/
def partialAnd (s : ℚ) : List Sample → List Sample → List Sample → ℚ → M (List Sample)
  | _, [], _, _ => .error .ub
  | z, i :: is, js, t =>
    if s < i.time then do
      let (z, js) ← segmentAnd z i t js
      match js with
      | [] => .error .ub
      | j :: js' => partialAnd s z is (if j.time = i.time then js' else j :: js') i.time
    else if i.time = s then do
      let (z, _) ← segmentAnd z i t js
      .ok z
    else do
      let (z, _) ← segmentAnd z ⟨s, i.valueAt s, i.derivative⟩ t js
      .ok z

/-- The loop of `computeSegmentOr`
(src/robustness.cpp:1047-1090).  The list is the reverse-iterator range starting
at `j`; `j->time` on an empty range is undefined behaviour. -/
def segmentOrLoop (i : Sample) : List Sample → ℚ → Bool → List Sample →
    M (List Sample × ℚ × Bool × List Sample)
  | _, _, _, [] => .error .ub
  | z, t, continued, j :: js =>
    if i.time < j.time then
      if i.valueAt t > j.valueAt t then
        if i.valueAt j.time < j.value then do
          let t' ← i.timeIntersect j
          segmentOrLoop i
            (⟨j.time, j.value, j.derivative⟩ :: ⟨t', i.valueAt t', i.derivative⟩ :: z)
            j.time false js
        else segmentOrLoop i z j.time true js
      else if i.valueAt t = j.valueAt t then
        if i.valueAt j.time < j.value then
          let z' := if continued then ⟨t, i.valueAt t, i.derivative⟩ :: z else z
          segmentOrLoop i (⟨j.time, j.value, j.derivative⟩ :: z') j.time false js
        else segmentOrLoop i z j.time true js
      else
        if i.valueAt j.time > j.value then do
          let z' := if continued then ⟨t, i.valueAt t, i.derivative⟩ :: z else z
          let t' ← i.timeIntersect j
          segmentOrLoop i (⟨t', j.valueAt t', j.derivative⟩ :: z') j.time true js
        else
          let z' := if continued then ⟨t, i.valueAt t, i.derivative⟩ :: z else z
          segmentOrLoop i (⟨j.time, j.value, j.derivative⟩ :: z') j.time false js
    else .ok (z, t, continued, j :: js)

/-- The part of `computeSegmentOr` after the loop (src/robustness.cpp:1092-1126). -/
def segmentOrLast (i : Sample) (z : List Sample) (t : ℚ) (continued : Bool) (j : Sample) :
    M (List Sample) :=
  let s := i.time
  if i.valueAt t > j.valueAt t then
    if i.value < j.valueAt s then do
      let t' ← i.timeIntersect j
      .ok (⟨s, j.valueAt s, j.derivative⟩ :: ⟨t', i.valueAt t', i.derivative⟩ :: z)
    else .ok (i :: z)
  else if i.valueAt t = j.valueAt t then
    if i.value < j.valueAt s then
      let z' := if continued then ⟨t, i.valueAt t, i.derivative⟩ :: z else z
      .ok (⟨s, j.valueAt s, j.derivative⟩ :: z')
    else .ok (i :: z)
  else
    if i.value > j.valueAt s then do
      let z' := if continued then ⟨t, i.valueAt t, i.derivative⟩ :: z else z
      let t' ← i.timeIntersect j
      .ok (i :: ⟨t', j.valueAt t', j.derivative⟩ :: z')
    else
      let z' := if continued then ⟨t, i.valueAt t, i.derivative⟩ :: z else z
      .ok (⟨s, j.valueAt s, j.derivative⟩ :: z')

/-- `computeSegmentOr` (src/robustness.cpp:1045-1128).  Returns the new content of
`z` and the new position of the iterator `j` (a reference parameter). -/
def segmentOr (z : List Sample) (i : Sample) (t : ℚ) (js : List Sample) :
    M (List Sample × List Sample) := do
  let (z, t, continued, js) ← segmentOrLoop i z t false js
  match js with
  | [] => .error .ub
  | j :: js' => do
    let z ← segmentOrLast i z t continued j
    .ok (z, j :: js')

/-- `computePartialOr` (src/robustness.cpp:1131-1158). -/
def partialOr (s : ℚ) : List Sample → List Sample → List Sample → ℚ → M (List Sample)
  | _, [], _, _ => .error .ub
  | z, i :: is, js, t =>
    if s < i.time then do
      let (z, js) ← segmentOr z i t js
      match js with
      | [] => .error .ub
      | j :: js' => partialOr s z is (if j.time = i.time then js' else j :: js') i.time
    else if i.time = s then do
      let (z, _) ← segmentOr z i t js
      .ok z
    else do
      let (z, _) ← segmentOr z ⟨s, i.valueAt s, i.derivative⟩ t js
      .ok z

/-- `while ((i->time >= endTime) && i != x.rend()-1) i++`
(src/robustness.cpp:126-129 and 145-148). -/
def skipGuarded (e : ℚ) : List Sample → M (List Sample)
  | [] => .error .ub
  | [p] => .ok [p]
  | p :: q :: r => if e ≤ p.time then skipGuarded e (q :: r) else .ok (p :: q :: r)

/-- `while (i->time >= z->endTime) i++` (src/robustness.cpp:682-685, 715-718,
810-813, and 207-210): reaching `rend()` is undefined behaviour. -/
def skip (e : ℚ) : List Sample → M (List Sample)
  | [] => .error .ub
  | p :: r => if e ≤ p.time then skip e r else .ok (p :: r)

/-- `Signal::compute_and` (src/robustness.cpp:117-134). -/
def computeAndM (x y : Signal) : M Signal := do
  let b := fmax x.beginTime y.beginTime
  let e := fmin x.endTime y.endTime
  let is ← skipGuarded e x.samples.reverse
  let js ← skipGuarded e y.samples.reverse
  let z ← partialAnd b [] is js e
  simplify ⟨z, b, e⟩

/-- `Signal::compute_or` (src/robustness.cpp:136-153). -/
def computeOrM (x y : Signal) : M Signal := do
  let b := fmax x.beginTime y.beginTime
  let e := fmin x.endTime y.endTime
  let is ← skipGuarded e x.samples.reverse
  let js ← skipGuarded e y.samples.reverse
  let z ← partialOr b [] is js e
  simplify ⟨z, b, e⟩

/-- `Signal::compute_implies` (src/robustness.cpp:155-162). -/
def computeImpliesM (x y : Signal) : M Signal := computeOrM (computeNot x) y

/-- `computeAnd` (src/robustness.cpp:672-691): as `compute_and` but the skipping
loops are unguarded. -/
def computeAnd (x y : Signal) : M Signal := do
  let b := fmax x.beginTime y.beginTime
  let e := fmin x.endTime y.endTime
  let is ← skip e x.samples.reverse
  let js ← skip e y.samples.reverse
  let z ← partialAnd b [] is js e
  simplify ⟨z, b, e⟩

/-- `computeOr` (src/robustness.cpp:693-736). -/
def computeOr (x y : Signal) : M Signal := do
  let b := fmax x.beginTime y.beginTime
  let e := fmin x.endTime y.endTime
  let is ← skip e x.samples.reverse
  let js ← skip e y.samples.reverse
  let z ← partialOr b [] is js e
  simplify ⟨z, b, e⟩

/-- `computeImplies` (src/robustness.cpp:738-750). -/
def computeImplies (x y : Signal) : M Signal := computeOr (computeNot x) y

/-! ## Eventually -/

/-- `computePartialEventually` (src/robustness.cpp:1165-1223), from the state
`(z, i, t, continued, z_max)` at the loop head.  Returns the new `z` and the new
position of the iterator `i` (a reference parameter). -/
def partialEventually (s : ℚ) : List Sample → List Sample → ℚ → Bool → ℚ →
    M (List Sample × List Sample)
  | _, [], _, _, _ => .error .ub
  | z, i :: is, t, continued, zmax =>
    if s < i.time then
      if 0 ≤ i.derivative then
        if zmax < i.valueAt t then
          let z' := if continued then ⟨t, zmax, 0⟩ :: z else z
          partialEventually s z' is i.time true (i.valueAt t)
        else partialEventually s z is i.time true zmax
      else if zmax ≤ i.valueAt t then
        let z' := if continued then ⟨t, zmax, 0⟩ :: z else z
        partialEventually s (i :: z') is i.time false i.value
      else if i.value ≤ zmax then
        partialEventually s z is i.time true zmax
      else do
        let d ← qdiv (zmax - i.value) i.derivative
        partialEventually s (i :: ⟨i.time + d, zmax, 0⟩ :: z) is i.time false i.value
    else
      if 0 ≤ i.derivative then
        if zmax < i.valueAt t then
          let z' := if continued then ⟨t, zmax, 0⟩ :: z else z
          .ok (⟨s, i.valueAt t, 0⟩ :: z', i :: is)
        else .ok (⟨s, zmax, 0⟩ :: z, i :: is)
      else if zmax ≤ i.valueAt t then
        let z' := if continued then ⟨t, zmax, 0⟩ :: z else z
        .ok (⟨s, i.valueAt s, i.derivative⟩ :: z', i :: is)
      else if i.valueAt s ≤ zmax then
        .ok (⟨s, zmax, 0⟩ :: z, i :: is)
      else do
        let d ← qdiv (zmax - i.value) i.derivative
        .ok (⟨s, i.valueAt s, i.derivative⟩ :: ⟨s + d, zmax, 0⟩ :: z, i :: is)

/-- `computeEventually` (src/robustness.cpp:752-772). -/
def computeEventually (B : ℚ) (x : Signal) : M Signal := do
  let (z, _) ← partialEventually x.beginTime [] x.samples.reverse x.endTime false (-B)
  .ok ⟨z, x.beginTime, x.endTime⟩

/-- `Signal::compute_eventually` (src/robustness.cpp:164-171).  The target's old
samples `old` are not cleared: the result is pushed in front of them. -/
def computeEventuallyM (B : ℚ) (old : Signal) (x : Signal) : M Signal := do
  let (z, _) ← partialEventually x.beginTime old.samples x.samples.reverse x.endTime false (-B)
  .ok ⟨z, x.beginTime, x.endTime⟩

/-- `computeGlobally` (src/robustness.cpp:775-791). -/
def computeGlobally (B : ℚ) (x : Signal) : M Signal := do
  let z2 ← computeEventually B (computeNot x)
  .ok (computeNot z2)

/-- `Signal::compute_globally` (src/robustness.cpp:173-186): the intermediate
signals are fresh, and `compute_not` clears the target. -/
def computeGloballyM (B : ℚ) (x : Signal) : M Signal := computeGlobally B x

/-! ## Sliding-window maximum and minimum -/

/-- `class Point` (include/signal.h:19-29). -/
structure Point where
  time : ℚ
  value : ℚ
  deriving DecidableEq, Repr

/-- The precomputation loop of `plateauMax` (src/robustness.cpp:1294-1301): the
list argument is the reverse range of `x`; `y` accumulates. -/
def peaksMax : List Sample → ℚ → ℚ → List Point → List Point
  | [], _, _, y => y
  | j :: js, t, v, y => peaksMax js j.time j.value (⟨t, fmax v (j.valueAt t)⟩ :: y)

/-- `while (!M.empty() && i->value >= M.back().value) M.pop_back();`
(src/robustness.cpp:1312-1314, 1352-1354). -/
def popMax (v : ℚ) (m : List Point) : List Point :=
  (m.reverse.dropWhile fun p => decide (p.value ≤ v)).reverse

/-- `while (i->time < x->beginTime + a)` loop of `plateauMax`
(src/robustness.cpp:1311-1319). -/
def initMax (lim : ℚ) : List Point → List Point → M (List Point × List Point)
  | _, [] => .error .ub
  | m, i :: is =>
    if i.time < lim then initMax lim (popMax i.value m ++ [i]) is
    else .ok (m, i :: is)

/-- `if (endCandidate) M.pop_front();` (src/robustness.cpp:1341-1348, 1502-1505):
`pop_front` of an empty deque is undefined. -/
def popFront (endC : Bool) (m : List Point) : M (List Point) :=
  if endC then
    match m with
    | [] => .error .ub
    | _ :: m' => .ok m'
  else .ok m

/-- `if (newCandidate) { ... M.push_back(*i); i++; }` of `plateauMax`
(src/robustness.cpp:1350-1365); the assignment to
`new_candidate` inside is dead, the flag is set again below. -/
def enterMax (newC : Bool) (m is : List Point) : M (List Point × List Point) :=
  if newC then
    match is with
    | [] => .error .ub
    | i :: is' => .ok (popMax i.value m ++ [i], is')
  else .ok (m, is)

/-- The value written by the output step (src/robustness.cpp:1372-1385,
1526-1539): the front candidate's, or `v` when there is none. -/
def frontVal (v : ℚ) : List Point → ℚ
  | [] => v
  | p :: _ => p.value

/-- One pass of the `while (cont)` loop of `plateauMax`
(src/robustness.cpp:1340-1441).  State: candidate list `m`, remaining points
`is`, output `z` (reversed: `push_back` is `::`), `t`, and the two flags. -/
def plateauMaxLoop (B a : ℚ) : ℕ → List Point → List Point → List Sample → ℚ → Bool → Bool →
    M (List Sample)
  | 0, _, _, _, _, _, _ => .error .fuel
  | n + 1, m, is, z, t, newC, endC => do
    -- candidate crosses t: remove it from list
    let m1 ← popFront endC m
    -- sample crosses t+a: add it to candidate list
    let (m2, is2) ← enterMax newC m1 is
    -- output of new maximum
    let z2 := ⟨t, frontVal (-B) m2, 0⟩ :: z
    -- next event detection
    match m2, is2 with
    | p :: _, i :: _ =>
      if i.time - a = p.time then plateauMaxLoop B a n m2 is2 z2 p.time true true
      else if i.time - a < p.time then plateauMaxLoop B a n m2 is2 z2 (i.time - a) true false
      else plateauMaxLoop B a n m2 is2 z2 p.time false true
    | p :: _, [] => plateauMaxLoop B a n m2 is2 z2 p.time false true
    | [], i :: _ => plateauMaxLoop B a n m2 is2 z2 (i.time - a) true false
    | [], [] => .ok z2

/-- `plateauMax` (src/robustness.cpp:1275-1452). -/
def plateauMax (B : ℚ) (x : Signal) (a : ℚ) : M Signal :=
  match x.samples with
  | [] => .error .ub
  | f :: _ => do
    let y := ⟨f.time, f.value⟩ :: peaksMax x.samples.reverse x.endTime (-B) []
    let (m, is) ← initMax (x.beginTime + a) [] y
    match is with
    | [] => .error .ub
    | i :: _ => do
      let z ← plateauMaxLoop B a (2 * y.length + 2) m is [] x.beginTime
        (decide (i.time = x.beginTime + a)) false
      match z with
      | [] => .error .ub
      | p :: z' =>
        .ok ⟨(if p.time = x.endTime then z' else p :: z').reverse, x.beginTime, x.endTime⟩

/-- The precomputation loop of `plateauMin` (src/robustness.cpp:1472-1479). -/
def peaksMin : List Sample → ℚ → ℚ → List Point → List Point
  | [], _, _, y => y
  | j :: js, t, v, y => peaksMin js j.time j.value (⟨t, fmin v (j.valueAt t)⟩ :: y)

/-- `while (!M.empty() && i->value <= M.back().value) M.pop_back();`
(src/robustness.cpp:1485-1487, 1514-1516). -/
def popMin (v : ℚ) (m : List Point) : List Point :=
  (m.reverse.dropWhile fun p => decide (v ≤ p.value)).reverse

/-- The initial loop of `plateauMin` (src/robustness.cpp:1484-1490). -/
def initMin (lim : ℚ) : List Point → List Point → M (List Point × List Point)
  | _, [] => .error .ub
  | m, i :: is =>
    if i.time < lim then initMin lim (popMin i.value m ++ [i]) is
    else .ok (m, i :: is)

/-- `if (newCandidate) { ... M.push_back(*i); i++; }` of `plateauMin`
(src/robustness.cpp:1507-1522). -/
def enterMin (newC : Bool) (m is : List Point) : M (List Point × List Point) :=
  if newC then
    match is with
    | [] => .error .ub
    | i :: is' => .ok (popMin i.value m ++ [i], is')
  else .ok (m, is)

/-- One pass of the `while (cont)` loop of `plateauMin`
(src/robustness.cpp:1500-1574). -/
def plateauMinLoop (B a : ℚ) : ℕ → List Point → List Point → List Sample → ℚ → Bool → Bool →
    M (List Sample)
  | 0, _, _, _, _, _, _ => .error .fuel
  | n + 1, m, is, z, t, newC, endC => do
    let m1 ← popFront endC m
    let (m2, is2) ← enterMin newC m1 is
    let z2 := ⟨t, frontVal B m2, 0⟩ :: z
    match m2, is2 with
    | p :: _, i :: _ =>
      if i.time - a = p.time then plateauMinLoop B a n m2 is2 z2 p.time true true
      else if i.time - a < p.time then plateauMinLoop B a n m2 is2 z2 (i.time - a) true false
      else plateauMinLoop B a n m2 is2 z2 p.time false true
    | p :: _, [] => plateauMinLoop B a n m2 is2 z2 p.time false true
    | [], i :: _ => plateauMinLoop B a n m2 is2 z2 (i.time - a) true false
    | [], [] => .ok z2

/-- `plateauMin` (src/robustness.cpp:1456-1579). -/
def plateauMin (B : ℚ) (x : Signal) (a : ℚ) : M Signal :=
  match x.samples with
  | [] => .error .ub
  | f :: _ => do
    let y := ⟨f.time, f.value⟩ :: peaksMin x.samples.reverse x.endTime B []
    let (m, is) ← initMin (x.beginTime + a) [] y
    match is with
    | [] => .error .ub
    | i :: _ => do
      let z ← plateauMinLoop B a (2 * y.length + 2) m is [] x.beginTime
        (decide (i.time = x.beginTime + a)) false
      match z with
      | [] => .error .ub
      | p :: z' =>
        .ok ⟨(if p.time = x.endTime then z' else p :: z').reverse, x.beginTime, x.endTime⟩

/-- `computeBoundedEventually` (src/robustness.cpp:842-871). -/
def computeBoundedEventually (B : ℚ) (x : Signal) (a : ℚ) : M Signal := do
  let z1 ← plateauMax B x a
  let z2 ← resize x (x.beginTime + a) (x.endTime + a) (-B)
  let z3 ← computeOr (shift z2 (-a)) z1
  let z ← computeOr x z3
  simplify z

/-- `computeBoundedGlobally` (src/robustness.cpp:873-900). -/
def computeBoundedGlobally (B : ℚ) (x : Signal) (a : ℚ) : M Signal := do
  let z1 ← plateauMin B x a
  let z2 ← resize x (x.beginTime + a) (x.endTime + a) B
  let z3 ← computeAnd (shift z2 (-a)) z1
  let z ← computeAnd x z3
  simplify z

/-- `Signal::compute_timed_eventually` (src/robustness.cpp:268-307); `old` is
the previous content of the target: on an empty `x` the target's samples are
cleared but its `beginTime` and `endTime` are kept. -/
def computeTimedEventually (B : ℚ) (old x : Signal) (a b : ℚ) : M Signal :=
  if x.samples = [] then .ok { old with samples := [] }
  else
    let y := if 0 < a then shift x (-a) else x
    if b - a ≤ 0 then .ok y
    else if y.endTime - y.beginTime ≤ b - a then computeEventually B y
    else computeBoundedEventually B y (b - a)

/-- `Signal::compute_timed_globally` (src/robustness.cpp:331-373). -/
def computeTimedGlobally (B : ℚ) (old x : Signal) (a b : ℚ) : M Signal :=
  if x.samples = [] then .ok { old with samples := [] }
  else
    let y := if 0 < a then shift x (-a) else x
    if b - a ≤ 0 then .ok y
    else if y.endTime - y.beginTime ≤ b - a then computeGlobally B y
    else computeBoundedGlobally B y (b - a)

/-! ## Until -/

/-- `computeSegmentUntil` (src/robustness.cpp:1226-1266).  Returns the new `z`
and the new position of the iterator `j` (a reference parameter). -/
def segmentUntil (B : ℚ) (z : List Sample) (i : Sample) (t : ℚ) (js : List Sample) (zmax : ℚ) :
    M (List Sample × List Sample) :=
  let s := i.time
  if i.derivative ≤ 0 then do
    let (z1, js') ← segmentAnd [] i t js
    let (z2, _) ← partialEventually s [] z1.reverse t false (-B)
    let (z', _) ← segmentOr z ⟨s, fmin zmax (i.valueAt t), 0⟩ t z2.reverse
    .ok (z', js')
  else do
    let (z1, js') ← partialEventually s [] js t false (-B)
    let (z2, _) ← segmentAnd [] i t z1.reverse
    let (z1', _) ← segmentAnd [] i t [⟨s, zmax, 0⟩]
    let z' ← partialOr s z z1'.reverse z2.reverse t
    .ok (z', js')

/-- The main loop of `computeUntil` (src/robustness.cpp:818-833). -/
def untilLoop (B s : ℚ) : List Sample → List Sample → List Sample → ℚ → ℚ → M (List Sample)
  | _, [], _, _, _ => .error .ub
  | z, i :: is, js, t, zmax =>
    if s < i.time then do
      let (z, js) ← segmentUntil B z i t js zmax
      match z, js with
      | f :: _, j :: js' =>
        untilLoop B s z is (if j.time = i.time then js' else j :: js') i.time f.value
      | _, _ => .error .ub
    else if i.time = s then do
      let (z, _) ← segmentUntil B z i t js zmax
      .ok z
    else do
      let (z, _) ← segmentUntil B z ⟨s, i.valueAt s, i.derivative⟩ t js zmax
      .ok z

/-- `computeUntil` (src/robustness.cpp:794-840). -/
def computeUntil (B : ℚ) (x y : Signal) : M Signal := do
  let b := fmax x.beginTime y.beginTime
  let e := fmin x.endTime y.endTime
  let is ← skip e x.samples.reverse
  let js ← skip e y.samples.reverse
  let z ← untilLoop B b [] is js e (-B)
  simplify ⟨z, b, e⟩

/-- `Signal::compute_until` (src/robustness.cpp:188-238).  The target's old
samples are not cleared (unless an operand is empty, when only they are). -/
def computeUntilM (B : ℚ) (old x y : Signal) : M Signal :=
  if x.samples = [] ∨ y.samples = [] then .ok { old with samples := [] }
  else do
    let b := fmax x.beginTime y.beginTime
    let e := fmin x.endTime y.endTime
    let is ← skip e x.samples.reverse
    let js ← skip e y.samples.reverse
    let z ← untilLoop B b old.samples is js e (-B)
    simplify ⟨z, b, e⟩

/-- `computeTimedUntil` (src/robustness.cpp:903-926). -/
def computeTimedUntilF (B : ℚ) (x y : Signal) (a b : ℚ) : M Signal := do
  let z2 ← computeBoundedEventually B y (b - a)
  let z3 ← computeUntil B x y
  let z4 ← computeAnd z2 z3
  if 0 < a then do
    let z1 ← computeBoundedGlobally B x a
    computeAnd z1 (shift z4 (-a))
  else computeAnd x z4

/-- `Signal::compute_timed_until` (src/robustness.cpp:375-411). -/
def computeTimedUntil (B : ℚ) (old x y : Signal) (a b : ℚ) : M Signal :=
  if x.samples = [] ∨ y.samples = [] then .ok { old with samples := [] }
  else if min x.endTime y.endTime < b then
    if a = 0 then computeUntil B x y
    else if x.endTime < a then computeGlobally B x
    else do
      let yalw1 ← computeBoundedGlobally B x a
      let yuntmp ← computeUntil B x y
      computeAnd yalw1 (shift yuntmp (-a))
  else computeTimedUntilF B x y a b

/-! ## Boolean and time robustness -/

/-- The loop of `Signal::compute_boolean` (src/robustness.cpp:22-49). -/
def booleanLoop (endTime : ℚ) : List Sample → M (List Sample)
  | [] => .ok []
  | i :: is => do
    let next := match is with
      | [] => endTime
      | n :: _ => n.time
    let rest ← booleanLoop endTime is
    if 0 < i.value then
      if i.derivative < 0 then do
        let q ← qdiv i.value i.derivative
        let tz := i.time - q
        if tz < next then .ok (⟨i.time, 1, 0⟩ :: ⟨tz, 0, 0⟩ :: rest)
        else .ok (⟨i.time, 1, 0⟩ :: rest)
      else .ok (⟨i.time, 1, 0⟩ :: rest)
    else
      if i.value < 0 ∧ 0 < i.derivative then do
        let q ← qdiv i.value i.derivative
        let tz := i.time - q
        if tz < next then .ok (⟨i.time, 0, 0⟩ :: ⟨tz, 1, 0⟩ :: rest)
        else .ok (⟨i.time, 0, 0⟩ :: rest)
      else .ok (⟨i.time, 0, 0⟩ :: rest)

/-- `Signal::compute_boolean` (src/robustness.cpp:18-54). -/
def computeBoolean (y : Signal) : M Signal := do
  let l ← booleanLoop y.endTime y.samples
  let x ← simplify ⟨l, y.beginTime, y.endTime⟩
  match x.samples.getLast? with
  | some b => if b.time = x.endTime then .ok { x with samples := x.samples.dropLast } else .ok x
  | none => .ok x

/-- `Signal::compute_left_time_rob` (src/robustness.cpp:60-77), with
`ZERO_POS = 1e-14`, `ZERO_NEG = -1e-14`. -/
def computeLeftTimeRob (y : Signal) : M Signal := do
  let yb ← computeBoolean y
  .ok ⟨yb.samples.map fun p => if 0 < p.value then ⟨p.time, tol, 1⟩ else ⟨p.time, -tol, -1⟩,
    y.beginTime, y.endTime⟩

/-- `Signal::compute_right_time_rob` (src/robustness.cpp:79-106).  Line 94
compares an iterator of `y_bool` with `y.end()`: undefined behaviour as soon as
the loop body runs. -/
def computeRightTimeRob (y : Signal) : M Signal := do
  let yb ← computeBoolean y
  match yb.samples with
  | [] => .ok ⟨[], y.beginTime, y.endTime⟩
  | _ :: _ => .error .ub

end Signal
end STLRom
