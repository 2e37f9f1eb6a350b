import Verif.Model.Rounded

/-!
# Evaluation with rounding

The functions of `Model/Transducer.lean` and `Model/Monitor.lean` that `eval_rob` runs, on top of the
rounded operations of `Model/Rounded.lean`: `rd` is applied to the result of every arithmetic
operation.  The absolute value and the negation of a number are exact.
-/

namespace STLRom
namespace Fp
open Tr

/-- `set_horizon` followed by `init_horizon` on the children
(include/transducer.h:51-55, src/transducer.cpp:8-47).  The code calls `init_horizon`
of a child twice (once from `set_horizon`, once explicitly); the second call repeats
the first one and is not repeated here.  Leaves have an empty `init_horizon`
(include/signal_expr.h:35,94). -/
def setHorizon (rd : ℚ → ℚ) (params : Assoc ℚ) (s e : ℚ) : Tr → Tr
  | .sig st v m t => .sig { st with start := s, stop := e } v m t
  | .const st p v t => .const { st with start := s, stop := e } p v t
  | .abs st c => .abs { st with start := s, stop := e } (setHorizon rd params s e c)
  | .plus st l r =>
    .plus { st with start := s, stop := e } (setHorizon rd params s e l) (setHorizon rd params s e r)
  | .minus st l r =>
    .minus { st with start := s, stop := e } (setHorizon rd params s e l) (setHorizon rd params s e r)
  | .mult st l r =>
    .mult { st with start := s, stop := e } (setHorizon rd params s e l) (setHorizon rd params s e r)
  | .atom st k l r =>
    .atom { st with start := s, stop := e } k (setHorizon rd params s e l) (setHorizon rd params s e r)
  | .not st c => .not { st with start := s, stop := e } (setHorizon rd params s e c)
  | .and st l r =>
    .and { st with start := s, stop := e } (setHorizon rd params s e l) (setHorizon rd params s e r)
  | .or st l r =>
    .or { st with start := s, stop := e } (setHorizon rd params s e l) (setHorizon rd params s e r)
  | .implies st l r =>
    .implies { st with start := s, stop := e } (setHorizon rd params s e l)
      (setHorizon rd params s e r)
  | .ev st I c =>
    .ev { st with start := s, stop := e } I
      (setHorizon rd params (rd (s + ivA params I)) (rd (e + ivB params I)) c)
  | .alw st I c =>
    .alw { st with start := s, stop := e } I
      (setHorizon rd params (rd (s + ivA params I)) (rd (e + ivB params I)) c)
  | .untl st l I r =>
    .untl { st with start := s, stop := e } (setHorizon rd params s (rd (e + ivB params I)) l) I
      (setHorizon rd params (rd (s + ivA params I)) (rd (e + ivB params I)) r)

/-- The reading loop of `signal_transducer::compute_robustness`
(src/stl_atom.cpp:82-88) on the rows from `td_idx` on. -/
def sigRead (rd : ℚ → ℚ) (ip : Interpol) (i : ℕ) (stop : ℚ) : List (List ℚ) → Signal → ℕ → ℚ → ℚ →
    M (Signal × ℕ × ℚ × ℚ)
  | [], z, td, t, v => .ok (z, td, t, v)
  | row :: rows, z, td, t, v =>
    if t ≤ stop then do
      let t' ← cell row 0
      let v' ← cell row i
      let z' ← appendSample0 rd ip z t' v'
      sigRead rd ip i stop rows z' (td + 1) t' v'
    else .ok (z, td, t, v)

/-- The reading loop of `constant_transducer::compute_robustness`
(src/stl_atom.cpp:122-126). -/
def constRead (rd : ℚ → ℚ) (ip : Interpol) (value stop : ℚ) : List (List ℚ) → Signal → ℕ → ℚ →
    M (Signal × ℕ × ℚ)
  | [], z, td, t => .ok (z, td, t)
  | row :: rows, z, td, t =>
    if t ≤ stop then do
      let t' ← cell row 0
      let z' ← appendSample0 rd ip z t' value
      constRead rd ip value stop rows z' (td + 1) t'
    else .ok (z, td, t)

/-- The end of both leaves' `compute_robustness` (src/stl_atom.cpp:91-97 and
128-136). -/
def leafTrim (rd : ℚ → ℚ) (start stop : ℚ) (z : Signal) (t v : ℚ) : M Signal :=
  let z := if stop < t then { z with endTime := stop } else z
  if start < z.endTime then resize rd z start (max start z.endTime) v
  else resize rd z z.endTime z.endTime v

/-- `signal_transducer::compute_robustness` (src/stl_atom.cpp:72-104): the new `z`,
the new `td_idx` and the returned value.  An undeclared variable has index 0. -/
def sigRob (rd : ℚ → ℚ) (env : Env) (s : St) (var : String) (smap : Assoc ℕ) (td : Option ℕ) :
    M (Signal × Option ℕ × ℚ) :=
  match (smap.lookup var).getD 0 with
  | 0 => do
    let z ← leafTrim rd s.start s.stop s.z 0 0
    let p ← z.front
    .ok (z, td, p.value)
  | i + 1 =>
    match td with
    | none => .error .ub
    | some td =>
      if env.data = [] ∧ 0 ≤ s.stop then .error outOfRange
      else do
        let (z, td', t, v) ← sigRead rd env.ip (i + 1) s.stop (env.data.drop td) s.z td 0 0
        let z ← leafTrim rd s.start s.stop z t v
        let p ← z.front
        .ok (z, some td', p.value)

/-- `constant_transducer::compute_robustness` (src/stl_atom.cpp:106-141). -/
def constRob (rd : ℚ → ℚ) (env : Env) (s : St) (value : ℚ) (td : Option ℕ) : M (Signal × Option ℕ) :=
  match td with
  | none => .error .ub
  | some td =>
    if env.data = [] ∧ 0 ≤ s.stop then .error outOfRange
    else do
      let (z, td', t) ← constRead rd env.ip value s.stop (env.data.drop td) s.z td 0
      let z ← leafTrim rd s.start s.stop z t value
      .ok (z, some td')

/-- The loops of the binary signal operators (src/signal_expr.cpp:47-53, 65-71, 83-89):
the right iterator is advanced without a check, so a shorter right operand is
undefined behaviour. -/
def binLoop (rd : ℚ → ℚ) (ip : Interpol) (f : ℚ → ℚ → ℚ) (z : Signal) : List Sample → List Sample → M Signal
  | [], _ => .ok z
  | _ :: _, [] => .error .ub
  | p :: ps, q :: qs => do
    let z' ← appendSample0 rd ip z p.time (rd (f p.value q.value))
    binLoop rd ip f z' ps qs

/-- The loop of `abs_transducer::compute_robustness` (src/signal_expr.cpp:26-31). -/
def absLoop (rd : ℚ → ℚ) (ip : Interpol) (z : Signal) : List Sample → M Signal
  | [] => .ok z
  | p :: ps => do
    let z' ← appendSample0 rd ip z p.time |p.value|
    absLoop rd ip z' ps

/-- The loop of `stl_atom::compute_robustness` (src/stl_atom.cpp:36-47). -/
def atomLoop (rd : ℚ → ℚ) (ip : Interpol) (k : Cmp) (z : Signal) : List Sample → List Sample → M Signal
  | p :: ps, q :: qs => do
    let z' ← (match k with
      | .less => appendSample rd ip z p.time (rd (q.value - p.value)) (rd (q.derivative - p.derivative))
      | .greater => appendSample rd ip z p.time (rd (p.value - q.value)) (rd (p.derivative - q.derivative)))
    atomLoop rd ip k z' ps qs
  | _, _ => .ok z

/-- `stl_atom::compute_robustness` after the children ran (src/stl_atom.cpp:34-65). -/
def atomRob (rd : ℚ → ℚ) (env : Env) (k : Cmp) (z zl zr : Signal) : M Signal := do
  let z ← atomLoop rd env.ip k z zl.samples zr.samples
  let z := { z with endTime := zl.endTime }
  match env.sem with
  | .SPACE => .ok z
  | .LEFT_TIME => computeLeftTimeRob rd z
  | .RIGHT_TIME => computeRightTimeRob rd z
  | .BOOLEAN => .error (.exn "Invalid semantics value")

/-- `and_transducer::compute_robustness` after the children ran
(src/transducer.cpp:219-225). -/
def andRob (rd : ℚ → ℚ) (zl zr : Signal) : M Signal :=
  let et := max zl.endTime zr.endTime
  computeAndM rd { zl with endTime := et } { zr with endTime := et }

/-- `or_transducer::compute_robustness` after the children ran
(src/transducer.cpp:243-250). -/
def orRob (rd : ℚ → ℚ) (zl zr : Signal) : M Signal :=
  let et := max zl.endTime zr.endTime
  computeOrM rd { zl with endTime := et } { zr with endTime := et }

/-- `ev_transducer::compute_robustness` after the child ran (src/transducer.cpp:166-179):
the new `z` and the new `child->z`. -/
def evRob (rd : ℚ → ℚ) (B : ℚ) (s : St) (a b : ℚ) (zc : Signal) : M (Signal × Signal) := do
  let z ← computeTimedEventually rd B s.z zc a b
  let et := min z.endTime s.stop
  let zc' ← resize rd zc (rd (et - b)) zc.endTime 0
  let z ← resize rd z s.start (max s.start et) 0
  .ok (z, zc')

/-- `alw_transducer::compute_robustness` after the child ran
(src/transducer.cpp:200-202). -/
def alwRob (rd : ℚ → ℚ) (B : ℚ) (s : St) (a b : ℚ) (zc : Signal) : M Signal := do
  let z ← computeTimedGlobally rd B s.z zc a b
  let et := min z.endTime s.stop
  resize rd z s.start (max s.start et) 0

/-- `until_transducer::compute_robustness` after the children ran
(src/transducer.cpp:283-284). -/
def untilRob (rd : ℚ → ℚ) (B : ℚ) (s : St) (a b : ℚ) (zl zr : Signal) : M Signal := do
  let z ← computeTimedUntil rd B s.z zl zr a b
  resize rd z 0 z.endTime 0

/-- `compute_robustness` of every class (src/transducer.cpp:145-286,
src/stl_atom.cpp:24-141, src/signal_expr.cpp:19-91): the mutated tree and the returned
value. -/
def computeRob (rd : ℚ → ℚ) (env : Env) : Tr → M (Tr × ℚ)
  | .sig s v m td => do
    let (z, td, r) ← sigRob rd env s v m td
    .ok (.sig { s with z := z } v m td, r)
  | .const s p v td => do
    let v := constValue env.params p v
    let (z, td) ← constRob rd env s v td
    .ok (.const { s with z := z } p v td, v)
  | .abs s c => do
    let (c, _) ← computeRob rd env c
    let z ← absLoop rd env.ip s.z c.st.z.samples
    let p ← z.front
    .ok (.abs { s with z := z } c, p.value)
  | .plus s l r => do
    let (l, _) ← computeRob rd env l
    let (r, _) ← computeRob rd env r
    let z ← binLoop rd env.ip (· + ·) s.z l.st.z.samples r.st.z.samples
    let p ← z.front
    .ok (.plus { s with z := z } l r, p.value)
  | .minus s l r => do
    let (l, _) ← computeRob rd env l
    let (r, _) ← computeRob rd env r
    let z ← binLoop rd env.ip (· - ·) s.z l.st.z.samples r.st.z.samples
    let p ← z.front
    .ok (.minus { s with z := z } l r, p.value)
  | .mult s l r => do
    let (l, _) ← computeRob rd env l
    let (r, _) ← computeRob rd env r
    let z ← binLoop rd env.ip (· * ·) s.z l.st.z.samples r.st.z.samples
    let p ← z.front
    .ok (.mult { s with z := z } l r, p.value)
  | .atom s k l r => do
    let (l, _) ← computeRob rd env l
    let (r, _) ← computeRob rd env r
    let z ← atomRob rd env k s.z l.st.z r.st.z
    let p ← z.front
    .ok (.atom { s with z := z } k l r, p.value)
  | .not s c => do
    let (c, _) ← computeRob rd env c
    let z := Signal.computeNot c.st.z
    let p ← z.front
    .ok (.not { s with z := z } c, p.value)
  | .and s l r => do
    let (l, _) ← computeRob rd env l
    let (r, _) ← computeRob rd env r
    let z ← andRob rd l.st.z r.st.z
    let p ← z.front
    .ok (.and { s with z := z } l r, p.value)
  | .or s l r => do
    let (l, _) ← computeRob rd env l
    let (r, _) ← computeRob rd env r
    let z ← orRob rd l.st.z r.st.z
    let p ← z.front
    .ok (.or { s with z := z } l r, p.value)
  | .implies s l r => do
    let (l, _) ← computeRob rd env l
    let (r, _) ← computeRob rd env r
    let z ← computeImpliesM rd l.st.z r.st.z
    let p ← z.front
    .ok (.implies { s with z := z } l r, p.value)
  | .ev s I c => do
    let (c, _) ← computeRob rd env c
    let (z, zc) ← evRob rd env.B s (ivA env.params I) (ivB env.params I) c.st.z
    let p ← z.front
    .ok (.ev { s with z := z } I (setZ zc c), p.value)
  | .alw s I c => do
    let (c, _) ← computeRob rd env c
    let z ← alwRob rd env.B s (ivA env.params I) (ivB env.params I) c.st.z
    let p ← z.front
    .ok (.alw { s with z := z } I c, p.value)
  | .untl s l I r => do
    let (l, _) ← computeRob rd env l
    let (r, _) ← computeRob rd env r
    let z ← untilRob rd env.B s (ivA env.params I) (ivB env.params I) l.st.z r.st.z
    let p ← z.front
    .ok (.untl { s with z := z } l I r, p.value)

/-- `if (z.empty()) z.appendSample(start_time, c)` (e.g.
src/interval_transducer.cpp:54-55). -/
def appendIfEmpty (rd : ℚ → ℚ) (ip : Interpol) (z : Signal) (t c : ℚ) : M Signal :=
  if z.samples = [] then appendSample0 rd ip z t c else .ok z

/-- `transducer::compute_lower_rob` after `compute_robustness`
(src/interval_transducer.cpp:18-23). -/
def defaultLow (rd : ℚ → ℚ) (env : Env) (s : St) : M Signal :=
  if s.z.endTime < s.start then appendSample0 rd env.ip s.zlow s.start (-env.B) else .ok s.z

/-- `transducer::compute_upper_rob` after `compute_robustness`
(src/interval_transducer.cpp:35-39): it also appends `BOTTOM`. -/
def defaultUp (rd : ℚ → ℚ) (env : Env) (s : St) : M Signal :=
  if s.z.endTime < s.start then appendSample0 rd env.ip s.zup s.start (-env.B) else .ok s.z

/-- `and_transducer::compute_lower_rob` after the children
(src/interval_transducer.cpp:53-56). -/
def andLow (rd : ℚ → ℚ) (env : Env) (s : St) (zl zr : Signal) : M Signal := do
  let z ← computeAndM rd zl zr
  let z ← resize rd z s.start (min zl.endTime zr.endTime) (-env.B)
  appendIfEmpty rd env.ip z s.start (-env.B)

/-- `and_transducer::compute_upper_rob` after the children
(src/interval_transducer.cpp:69-72). -/
def andUp (rd : ℚ → ℚ) (env : Env) (s : St) (zl zr : Signal) : M Signal := do
  let z ← computeAndM rd zl zr
  let z ← resize rd z s.start z.endTime env.B
  appendIfEmpty rd env.ip z s.start env.B

/-- `or_transducer::compute_lower_rob` after the children
(src/interval_transducer.cpp:83-86). -/
def orLow (rd : ℚ → ℚ) (env : Env) (s : St) (zl zr : Signal) : M Signal := do
  let z ← computeOrM rd zl zr
  let z ← resize rd z s.start z.endTime (-env.B)
  appendIfEmpty rd env.ip z s.start (-env.B)

/-- `or_transducer::compute_upper_rob` after the children
(src/interval_transducer.cpp:93-96). -/
def orUp (rd : ℚ → ℚ) (env : Env) (s : St) (zl zr : Signal) : M Signal := do
  let z ← computeOrM rd zl zr
  let z ← resize rd z s.start (min zl.endTime zr.endTime) env.B
  appendIfEmpty rd env.ip z s.start env.B

/-- `implies_transducer::compute_lower_rob` after the children
(src/interval_transducer.cpp:106-112); `zl` is the left child's upper signal. -/
def impliesLow (rd : ℚ → ℚ) (env : Env) (s : St) (zl zr : Signal) : M Signal := do
  let z ← computeOrM rd (Signal.computeNot zl) zr
  let z ← resize rd z s.start z.endTime (-env.B)
  appendIfEmpty rd env.ip z s.start (-env.B)

/-- `implies_transducer::compute_upper_rob` after the children
(src/interval_transducer.cpp:120-126); `zl` is the left child's lower signal. -/
def impliesUp (rd : ℚ → ℚ) (env : Env) (s : St) (zl zr : Signal) : M Signal := do
  let z1 := Signal.computeNot zl
  let z ← computeOrM rd z1 zr
  let z ← resize rd z s.start (min z1.endTime zr.endTime) env.B
  appendIfEmpty rd env.ip z s.start env.B

/-- `ev_transducer::compute_lower_rob` after the child
(src/interval_transducer.cpp:166-181): new `z_low` and returned value. -/
def evLow (rd : ℚ → ℚ) (env : Env) (s : St) (a b : ℚ) (zc : Signal) : M (Signal × ℚ) :=
  if zc.endTime < a then do
    let z ← appendSample0 rd env.ip s.zlow s.start (-env.B)
    .ok (z, -env.B)
  else do
    let z ← computeTimedEventually rd env.B s.zlow zc a b
    let z ← resize rd z s.start (max s.start (min z.endTime s.stop)) 0
    let z ← appendIfEmpty rd env.ip z s.start (-env.B)
    let p ← z.front
    .ok (z, p.value)

/-- `ev_transducer::compute_upper_rob` after the child
(src/interval_transducer.cpp:200-217). -/
def evUp (rd : ℚ → ℚ) (env : Env) (s : St) (a b : ℚ) (zc : Signal) : M (Signal × ℚ) :=
  if zc.endTime < a then do
    let z ← appendSample0 rd env.ip s.zup s.start env.B
    .ok (z, env.B)
  else do
    let z ← computeTimedEventually rd env.B s.zup zc a b
    let z ← resize rd z s.start (min (rd (rd (z.endTime - b) + a)) s.stop) 0
    let z ← appendIfEmpty rd env.ip z s.start env.B
    let p ← z.front
    .ok (z, p.value)

/-- `alw_transducer::compute_lower_rob` after the child
(src/interval_transducer.cpp:237-256). -/
def alwLow (rd : ℚ → ℚ) (env : Env) (s : St) (a b : ℚ) (zc : Signal) : M (Signal × ℚ) :=
  if zc.endTime < a then do
    let z ← appendSample0 rd env.ip s.zlow s.start (-env.B)
    .ok (z, -env.B)
  else do
    let z ← computeTimedGlobally rd env.B s.zlow zc a b
    let z ← resize rd z s.start (min (rd (rd (z.endTime - b) + a)) s.stop) 0
    let z ← appendIfEmpty rd env.ip z s.start (-env.B)
    let p ← z.front
    .ok (z, p.value)

/-- `alw_transducer::compute_upper_rob` after the child
(src/interval_transducer.cpp:271-288). -/
def alwUp (rd : ℚ → ℚ) (env : Env) (s : St) (a b : ℚ) (zc : Signal) : M (Signal × ℚ) :=
  if zc.endTime < a then do
    let z ← appendSample0 rd env.ip s.zup s.start env.B
    .ok (z, env.B)
  else do
    let z ← computeTimedGlobally rd env.B s.zup zc a b
    let z ← resize rd z s.start (max s.start (min z.endTime s.stop)) 0
    let z ← appendIfEmpty rd env.ip z s.start env.B
    let p ← z.front
    .ok (z, p.value)

/-- `until_transducer::compute_lower_rob` after the children
(src/interval_transducer.cpp:303-311). -/
def untilLow (rd : ℚ → ℚ) (env : Env) (s : St) (a b : ℚ) (zl zr : Signal) : M (Signal × ℚ) := do
  let z ← computeTimedUntil rd env.B s.zlow zl zr a b
  let z ← resize rd z s.start (max s.start (min z.endTime s.stop)) 0
  match z.samples with
  | [] => .ok (z, -env.B)
  | p :: _ => .ok (z, p.value)

/-- `until_transducer::compute_upper_rob` after the children
(src/interval_transducer.cpp:323-330). -/
def untilUp (rd : ℚ → ℚ) (env : Env) (s : St) (a b : ℚ) (zl zr : Signal) : M (Signal × ℚ) := do
  let z ← computeTimedUntil rd env.B s.zup zl zr a b
  let z ← resize rd z s.start (max s.start (min (rd (z.endTime - b)) s.stop)) 0
  match z.samples with
  | [] => .ok (z, env.B)
  | p :: _ => .ok (z, p.value)

mutual
/-- `compute_lower_rob` of every class (src/interval_transducer.cpp:13-313). -/
def computeLow (rd : ℚ → ℚ) (env : Env) : Tr → M (Tr × ℚ)
  | .and s l r => do
    let (l, _) ← computeLow rd env l
    let (r, _) ← computeLow rd env r
    let z ← andLow rd env s l.st.zlow r.st.zlow
    let p ← z.front
    .ok (.and { s with zlow := z } l r, p.value)
  | .or s l r => do
    let (l, _) ← computeLow rd env l
    let (r, _) ← computeLow rd env r
    let z ← orLow rd env s l.st.zlow r.st.zlow
    let p ← z.front
    .ok (.or { s with zlow := z } l r, p.value)
  | .implies s l r => do
    let (l, _) ← computeUp rd env l
    let (r, _) ← computeLow rd env r
    let z ← impliesLow rd env s l.st.zup r.st.zlow
    let p ← z.front
    .ok (.implies { s with zlow := z } l r, p.value)
  | .not s c => do
    let (c, _) ← computeUp rd env c
    if c.st.zup.samples = [] then do
      let z ← appendSample0 rd env.ip s.zlow s.start (-env.B)
      .ok (.not { s with zlow := z } c, -env.B)
    else do
      let z := Signal.computeNot c.st.zup
      let p ← z.front
      .ok (.not { s with zlow := z } c, p.value)
  | .ev s I c => do
    let (c, _) ← computeLow rd env c
    let (z, r) ← evLow rd env s (ivA env.params I) (ivB env.params I) c.st.zlow
    .ok (.ev { s with zlow := z } I c, r)
  | .alw s I c => do
    let (c, _) ← computeLow rd env c
    let (z, r) ← alwLow rd env s (ivA env.params I) (ivB env.params I) c.st.zlow
    .ok (.alw { s with zlow := z } I c, r)
  | .untl s l I r => do
    let (l, vl) ← computeLow rd env l
    if vl = -env.B then .ok (.untl s l I r, -env.B)
    else do
      let (r, vr) ← computeLow rd env r
      if vr = -env.B then .ok (.untl s l I r, -env.B)
      else do
        let (z, v) ← untilLow rd env s (ivA env.params I) (ivB env.params I) l.st.zlow r.st.zlow
        .ok (.untl { s with zlow := z } l I r, v)
  | .sig s v m td => do
    let (T, _) ← computeRob rd env (.sig s v m td)
    let z ← defaultLow rd env T.st
    let p ← z.front
    .ok (T.setSt { T.st with zlow := z }, p.value)
  | .const s v m td => do
    let (T, _) ← computeRob rd env (.const s v m td)
    let z ← defaultLow rd env T.st
    let p ← z.front
    .ok (T.setSt { T.st with zlow := z }, p.value)
  | .abs s c => do
    let (T, _) ← computeRob rd env (.abs s c)
    let z ← defaultLow rd env T.st
    let p ← z.front
    .ok (T.setSt { T.st with zlow := z }, p.value)
  | .plus s l r => do
    let (T, _) ← computeRob rd env (.plus s l r)
    let z ← defaultLow rd env T.st
    let p ← z.front
    .ok (T.setSt { T.st with zlow := z }, p.value)
  | .minus s l r => do
    let (T, _) ← computeRob rd env (.minus s l r)
    let z ← defaultLow rd env T.st
    let p ← z.front
    .ok (T.setSt { T.st with zlow := z }, p.value)
  | .mult s l r => do
    let (T, _) ← computeRob rd env (.mult s l r)
    let z ← defaultLow rd env T.st
    let p ← z.front
    .ok (T.setSt { T.st with zlow := z }, p.value)
  | .atom s k l r => do
    let (T, _) ← computeRob rd env (.atom s k l r)
    let z ← defaultLow rd env T.st
    let p ← z.front
    .ok (T.setSt { T.st with zlow := z }, p.value)

/-- `compute_upper_rob` of every class (src/interval_transducer.cpp:30-332). -/
def computeUp (rd : ℚ → ℚ) (env : Env) : Tr → M (Tr × ℚ)
  | .and s l r => do
    let (l, _) ← computeUp rd env l
    let (r, _) ← computeUp rd env r
    let z ← andUp rd env s l.st.zup r.st.zup
    let p ← z.front
    .ok (.and { s with zup := z } l r, p.value)
  | .or s l r => do
    let (l, _) ← computeUp rd env l
    let (r, _) ← computeUp rd env r
    let z ← orUp rd env s l.st.zup r.st.zup
    let p ← z.front
    .ok (.or { s with zup := z } l r, p.value)
  | .implies s l r => do
    let (l, _) ← computeLow rd env l
    let (r, _) ← computeUp rd env r
    let z ← impliesUp rd env s l.st.zlow r.st.zup
    let p ← z.front
    .ok (.implies { s with zup := z } l r, p.value)
  | .not s c => do
    let (c, _) ← computeLow rd env c
    if c.st.zlow.samples = [] then do
      let z ← appendSample0 rd env.ip s.zup s.start env.B
      .ok (.not { s with zup := z } c, env.B)
    else do
      let z := Signal.computeNot c.st.zlow
      let p ← z.front
      .ok (.not { s with zup := z } c, p.value)
  | .ev s I c => do
    let (c, _) ← computeUp rd env c
    let (z, r) ← evUp rd env s (ivA env.params I) (ivB env.params I) c.st.zup
    .ok (.ev { s with zup := z } I c, r)
  | .alw s I c => do
    let (c, _) ← computeUp rd env c
    let (z, r) ← alwUp rd env s (ivA env.params I) (ivB env.params I) c.st.zup
    .ok (.alw { s with zup := z } I c, r)
  | .untl s l I r => do
    let (l, vl) ← computeUp rd env l
    if vl = env.B then .ok (.untl s l I r, env.B)
    else do
      let (r, vr) ← computeUp rd env r
      if vr = env.B then .ok (.untl s l I r, env.B)
      else do
        let (z, v) ← untilUp rd env s (ivA env.params I) (ivB env.params I) l.st.zup r.st.zup
        .ok (.untl { s with zup := z } l I r, v)
  | .sig s v m td => do
    let (T, _) ← computeRob rd env (.sig s v m td)
    let z ← defaultUp rd env T.st
    let p ← z.front
    .ok (T.setSt { T.st with zup := z }, p.value)
  | .const s v m td => do
    let (T, _) ← computeRob rd env (.const s v m td)
    let z ← defaultUp rd env T.st
    let p ← z.front
    .ok (T.setSt { T.st with zup := z }, p.value)
  | .abs s c => do
    let (T, _) ← computeRob rd env (.abs s c)
    let z ← defaultUp rd env T.st
    let p ← z.front
    .ok (T.setSt { T.st with zup := z }, p.value)
  | .plus s l r => do
    let (T, _) ← computeRob rd env (.plus s l r)
    let z ← defaultUp rd env T.st
    let p ← z.front
    .ok (T.setSt { T.st with zup := z }, p.value)
  | .minus s l r => do
    let (T, _) ← computeRob rd env (.minus s l r)
    let z ← defaultUp rd env T.st
    let p ← z.front
    .ok (T.setSt { T.st with zup := z }, p.value)
  | .mult s l r => do
    let (T, _) ← computeRob rd env (.mult s l r)
    let z ← defaultUp rd env T.st
    let p ← z.front
    .ok (T.setSt { T.st with zup := z }, p.value)
  | .atom s k l r => do
    let (T, _) ← computeRob rd env (.atom s k l r)
    let z ← defaultUp rd env T.st
    let p ← z.front
    .ok (T.setSt { T.st with zup := z }, p.value)
end

/-- What `eval_rob` does to the tree before computing (src/stl_monitor.cpp:40-45). -/
def prepare (rd : ℚ → ℚ) (params : Assoc ℚ) (s e : ℚ) (T : Tr) : Tr :=
  setHorizon rd params s e (((T.setTraceData).setParamMap params).reset)

/-- The three computations of `eval_rob` (src/stl_monitor.cpp:46-48) on the same tree. -/
def run3 (rd : ℚ → ℚ) (env : Env) (T : Tr) : M (Tr × ℚ × ℚ × ℚ) := do
  let (T, r) ← computeRob rd env T
  let (T, lo) ← computeLow rd env T
  let (T, up) ← computeUp rd env T
  .ok (T, r, lo, up)

/-- `STLMonitor::eval_rob(double, double)` (src/stl_monitor.cpp:35-51): the new statics,
the new monitor and the outcome.  When the run fails the tree keeps the state it had
before the computation; the code leaves it partly computed, but the next evaluation
resets it. -/
def evalRob (rd : ℚ → ℚ) (g : Globals) (m : Monitor) (s e : ℚ) : Globals × Monitor × M ℚ :=
  match m.formula with
  | none => (g, m, .ok m.rob)
  | some T =>
    let T := prepare rd m.params s e T
    let g := { g with sem := m.sem, ip := m.ip }
    match run3 rd ⟨g.B, m.sem, m.ip, m.data, m.params⟩ T with
    | .ok (T, r, lo, up) =>
      (g, { m with formula := some T, rob := r, lowerRob := lo, upperRob := up }, .ok r)
    | .error f => (g, { m with formula := some T }, .error f)

/-- `STLMonitor::eval_rob(double)` (src/stl_monitor.cpp:32-34). -/
def evalRob1 (rd : ℚ → ℚ) (g : Globals) (m : Monitor) (t : ℚ) : Globals × Monitor × M ℚ := evalRob rd g m t t

end Fp
end STLRom
