import Verif.Model.Robust

/-!
# Transducers

Model of `include/transducer.h`, `include/signal_expr.h`, `include/interval.h`,
`src/transducer.cpp`, `src/interval_transducer.cpp`, `src/stl_atom.cpp` and
`src/signal_expr.cpp`.

A transducer object is a tree whose nodes carry their mutable fields.  The
pointers `trace_data_ptr` and `param_map_ptr` (include/transducer.h:26-27) and
the statics `Signal::BigM`, `Signal::semantics` and `Signal::interpol` are passed
as the record `Env`: `STLMonitor::eval_rob` sets all of them before each run
(src/stl_monitor.cpp:40-43).
-/

namespace STLRom

/-- `map<string, double>` / `map<string, int>` as an association list. -/
abbrev Assoc (α : Type) := List (String × α)

/-- The fields of `class transducer` that evaluation reads and writes
(include/transducer.h:34-37).  `param_map` (line 29) is never read by evaluation and
is left out. -/
structure St where
  start : ℚ
  stop : ℚ
  z : Signal
  zlow : Signal
  zup : Signal
  deriving DecidableEq, Repr

/-- State of a newly constructed node (include/transducer.h:39). -/
def St.init : St := ⟨0, 0, .empty, .empty, .empty⟩

/-- `class interval` (include/interval.h:12-41). -/
structure Ival where
  begin : ℚ
  stop : ℚ
  beginStr : String
  stopStr : String
  deriving DecidableEq, Repr

/-- `enum comparator` (include/transducer.h:500-502). -/
inductive Cmp where
  | less | greater
  deriving DecidableEq, Repr

/-- A transducer object with its children (include/transducer.h:22-561,
include/signal_expr.h:20-272).  `td` is `td_idx`, `none` while it is uninitialised;
`smap` is the leaf's `signal_map`, with indices as natural numbers (the conversion
to `short` in src/stl_atom.cpp:77 is not modelled). -/
inductive Tr where
  | sig (st : St) (var : String) (smap : Assoc ℕ) (td : Option ℕ)
  | const (st : St) (param : String) (value : ℚ) (td : Option ℕ)
  | abs (st : St) (c : Tr)
  | plus (st : St) (l r : Tr)
  | minus (st : St) (l r : Tr)
  | mult (st : St) (l r : Tr)
  | atom (st : St) (cmp : Cmp) (l r : Tr)
  | not (st : St) (c : Tr)
  | and (st : St) (l r : Tr)
  | or (st : St) (l r : Tr)
  | implies (st : St) (l r : Tr)
  | ev (st : St) (I : Ival) (c : Tr)
  | alw (st : St) (I : Ival) (c : Tr)
  | untl (st : St) (l : Tr) (I : Ival) (r : Tr)
  deriving DecidableEq, Repr

/-- What a run reads besides the tree. -/
structure Env where
  B : ℚ
  sem : Semantics
  ip : Interpol
  data : List (List ℚ)
  params : Assoc ℚ

namespace Tr

/-- The fields of the base class `transducer` of a node. -/
def st : Tr → St
  | sig s _ _ _ | const s _ _ _ | abs s _ | plus s _ _ | minus s _ _ | mult s _ _
  | atom s _ _ _ | not s _ | and s _ _ | or s _ _ | implies s _ _ | ev s _ _ | alw s _ _
  | untl s _ _ _ => s

/-- Assigning the fields of the base class `transducer` of a node. -/
def setSt (s : St) : Tr → Tr
  | sig _ v m t => sig s v m t
  | const _ p v t => const s p v t
  | abs _ c => abs s c
  | plus _ l r => plus s l r
  | minus _ l r => minus s l r
  | mult _ l r => mult s l r
  | atom _ k l r => atom s k l r
  | not _ c => not s c
  | and _ l r => and s l r
  | or _ l r => or s l r
  | implies _ l r => implies s l r
  | ev _ I c => ev s I c
  | alw _ I c => alw s I c
  | untl _ l I r => untl s l I r

/-- `transducer::get_param` (src/transducer.cpp:294-305) used as in
`if (!get_param(I->begin_str,a)) a = I->begin;` (e.g. src/transducer.cpp:160). -/
def resolve (params : Assoc ℚ) (name : String) (dflt : ℚ) : ℚ :=
  match params.lookup name with
  | some v => v
  | none => dflt

/-- The resolved left bound of an interval (src/transducer.cpp:27). -/
def ivA (params : Assoc ℚ) (I : Ival) : ℚ := resolve params I.beginStr I.begin

/-- The resolved right bound of an interval (src/transducer.cpp:28). -/
def ivB (params : Assoc ℚ) (I : Ival) : ℚ := resolve params I.stopStr I.stop

/-- `set_horizon` followed by `init_horizon` on the children
(include/transducer.h:51-55, src/transducer.cpp:8-47).  The code calls `init_horizon`
of a child twice (once from `set_horizon`, once explicitly); the second call repeats
the first one and is not repeated here.  Leaves have an empty `init_horizon`
(include/signal_expr.h:35,94). -/
def setHorizon (params : Assoc ℚ) (s e : ℚ) : Tr → Tr
  | sig st v m t => sig { st with start := s, stop := e } v m t
  | const st p v t => const { st with start := s, stop := e } p v t
  | abs st c => abs { st with start := s, stop := e } (setHorizon params s e c)
  | plus st l r =>
    plus { st with start := s, stop := e } (setHorizon params s e l) (setHorizon params s e r)
  | minus st l r =>
    minus { st with start := s, stop := e } (setHorizon params s e l) (setHorizon params s e r)
  | mult st l r =>
    mult { st with start := s, stop := e } (setHorizon params s e l) (setHorizon params s e r)
  | atom st k l r =>
    atom { st with start := s, stop := e } k (setHorizon params s e l) (setHorizon params s e r)
  | not st c => not { st with start := s, stop := e } (setHorizon params s e c)
  | and st l r =>
    and { st with start := s, stop := e } (setHorizon params s e l) (setHorizon params s e r)
  | or st l r =>
    or { st with start := s, stop := e } (setHorizon params s e l) (setHorizon params s e r)
  | implies st l r =>
    implies { st with start := s, stop := e } (setHorizon params s e l)
      (setHorizon params s e r)
  | ev st I c =>
    ev { st with start := s, stop := e } I
      (setHorizon params (s + ivA params I) (e + ivB params I) c)
  | alw st I c =>
    alw { st with start := s, stop := e } I
      (setHorizon params (s + ivA params I) (e + ivB params I) c)
  | untl st l I r =>
    untl { st with start := s, stop := e } (setHorizon params s (e + ivB params I) l) I
      (setHorizon params (s + ivA params I) (e + ivB params I) r)

/-- `reset` on the fields of one node (src/transducer.cpp:73-78). -/
def resetSt (s : St) : St := { s with z := .empty, zlow := .empty, zup := .empty }

/-- `transducer::reset` and its overrides (src/transducer.cpp:73-95). -/
def reset : Tr → Tr
  | sig s v m t => sig (resetSt s) v m t
  | const s p v t => const (resetSt s) p v t
  | abs s c => abs (resetSt s) (reset c)
  | plus s l r => plus (resetSt s) (reset l) (reset r)
  | minus s l r => minus (resetSt s) (reset l) (reset r)
  | mult s l r => mult (resetSt s) (reset l) (reset r)
  | atom s k l r => atom (resetSt s) k (reset l) (reset r)
  | not s c => not (resetSt s) (reset c)
  | and s l r => and (resetSt s) (reset l) (reset r)
  | or s l r => or (resetSt s) (reset l) (reset r)
  | implies s l r => implies (resetSt s) (reset l) (reset r)
  | ev s I c => ev (resetSt s) I (reset c)
  | alw s I c => alw (resetSt s) I (reset c)
  | untl s l I r => untl (resetSt s) (reset l) I (reset r)

/-- `set_trace_data_ptr` (include/transducer.h:59-62,113-116,155-159,
include/signal_expr.h:54-58,118-122): the effect left after the pointer itself is
passed in `Env` is that the leaves' `td_idx` becomes 0. -/
def setTraceData : Tr → Tr
  | sig s v m _ => sig s v m (some 0)
  | const s p v _ => const s p v (some 0)
  | abs s c => abs s (setTraceData c)
  | plus s l r => plus s (setTraceData l) (setTraceData r)
  | minus s l r => minus s (setTraceData l) (setTraceData r)
  | mult s l r => mult s (setTraceData l) (setTraceData r)
  | atom s k l r => atom s k (setTraceData l) (setTraceData r)
  | not s c => not s (setTraceData c)
  | and s l r => and s (setTraceData l) (setTraceData r)
  | or s l r => or s (setTraceData l) (setTraceData r)
  | implies s l r => implies s (setTraceData l) (setTraceData r)
  | ev s I c => ev s I (setTraceData c)
  | alw s I c => alw s I (setTraceData c)
  | untl s l I r => untl s (setTraceData l) I (setTraceData r)

/-- `set_param_map_ptr` (include/transducer.h:63-66,117-120,161-165,
include/signal_expr.h:59-61,124-131): a constant leaf whose name is in the map takes
the map's value. -/
def setParamMap (params : Assoc ℚ) : Tr → Tr
  | sig s v m t => sig s v m t
  | const s p v t => const s p (resolve params p v) t
  | abs s c => abs s (setParamMap params c)
  | plus s l r => plus s (setParamMap params l) (setParamMap params r)
  | minus s l r => minus s (setParamMap params l) (setParamMap params r)
  | mult s l r => mult s (setParamMap params l) (setParamMap params r)
  | atom s k l r => atom s k (setParamMap params l) (setParamMap params r)
  | not s c => not s (setParamMap params c)
  | and s l r => and s (setParamMap params l) (setParamMap params r)
  | or s l r => or s (setParamMap params l) (setParamMap params r)
  | implies s l r => implies s (setParamMap params l) (setParamMap params r)
  | ev s I c => ev s I (setParamMap params c)
  | alw s I c => alw s I (setParamMap params c)
  | untl s l I r => untl s (setParamMap params l) I (setParamMap params r)

/-- `set_param` (src/transducer.cpp:50-70,98-111, include/signal_expr.h:96-104): the
part that evaluation can see, i.e. the `value` of constant leaves of that name. -/
def setParam (name : String) (x : ℚ) : Tr → Tr
  | sig s v m t => sig s v m t
  | const s p v t => const s p (if name = p then x else v) t
  | abs s c => abs s (setParam name x c)
  | plus s l r => plus s (setParam name x l) (setParam name x r)
  | minus s l r => minus s (setParam name x l) (setParam name x r)
  | mult s l r => mult s (setParam name x l) (setParam name x r)
  | atom s k l r => atom s k (setParam name x l) (setParam name x r)
  | not s c => not s (setParam name x c)
  | and s l r => and s (setParam name x l) (setParam name x r)
  | or s l r => or s (setParam name x l) (setParam name x r)
  | implies s l r => implies s (setParam name x l) (setParam name x r)
  | ev s I c => ev s I (setParam name x c)
  | alw s I c => alw s I (setParam name x c)
  | untl s l I r => untl s (setParam name x l) I (setParam name x r)

/-- `clone` (include/transducer.h:253-535, include/signal_expr.h:37-47,106-115 and the
operators below): nodes are rebuilt with a fresh base state, leaves keep `td_idx`,
name, value and (signals) `signal_map`.  The constructors' `init_horizon` calls only
write `start_time` and `end_time`, which every evaluation overwrites first; they are
left at 0 here. -/
def clone : Tr → Tr
  | sig _ v m t => sig .init v m t
  | const _ p v t => const .init p v t
  | abs _ c => abs .init (clone c)
  | plus _ l r => plus .init (clone l) (clone r)
  | minus _ l r => minus .init (clone l) (clone r)
  | mult _ l r => mult .init (clone l) (clone r)
  | atom _ k l r => atom .init k (clone l) (clone r)
  | not _ c => not .init (clone c)
  | and _ l r => and .init (clone l) (clone r)
  | or _ l r => or .init (clone l) (clone r)
  | implies _ l r => implies .init (clone l) (clone r)
  | ev _ I c => ev .init I (clone c)
  | alw _ I c => alw .init I (clone c)
  | untl _ l I r => untl .init (clone l) I (clone r)

/-! ## Leaves and signal expressions -/

/-- `(*trace_data_ptr)[..][k]`: reading past the end of a row is undefined. -/
def cell (row : List ℚ) (k : ℕ) : M ℚ :=
  match row[k]? with
  | none => .error .ub
  | some v => .ok v

/-- The reading loop of `signal_transducer::compute_robustness`
(src/stl_atom.cpp:82-88) on the rows from `td_idx` on. -/
def sigRead (ip : Interpol) (i : ℕ) (stop : ℚ) : List (List ℚ) → Signal → ℕ → ℚ → ℚ →
    M (Signal × ℕ × ℚ × ℚ)
  | [], z, td, t, v => .ok (z, td, t, v)
  | row :: rows, z, td, t, v =>
    if t ≤ stop then do
      let t' ← cell row 0
      let v' ← cell row i
      let z' ← z.appendSample0 ip t' v'
      sigRead ip i stop rows z' (td + 1) t' v'
    else .ok (z, td, t, v)

/-- The reading loop of `constant_transducer::compute_robustness`
(src/stl_atom.cpp:122-126). -/
def constRead (ip : Interpol) (value stop : ℚ) : List (List ℚ) → Signal → ℕ → ℚ →
    M (Signal × ℕ × ℚ)
  | [], z, td, t => .ok (z, td, t)
  | row :: rows, z, td, t =>
    if t ≤ stop then do
      let t' ← cell row 0
      let z' ← z.appendSample0 ip t' value
      constRead ip value stop rows z' (td + 1) t'
    else .ok (z, td, t)

/-- The end of both leaves' `compute_robustness` (src/stl_atom.cpp:91-97 and
128-136). -/
def leafTrim (start stop : ℚ) (z : Signal) (t v : ℚ) : M Signal :=
  let z := if stop < t then { z with endTime := stop } else z
  if start < z.endTime then z.resize start (max start z.endTime) v
  else z.resize z.endTime z.endTime v

/-- The exception of `vector::at` on an empty trace: `size()-1` wraps around, so the
loop is entered (src/stl_atom.cpp:82,122). -/
def outOfRange : Fault := .exn "out_of_range"

/-- `signal_transducer::compute_robustness` (src/stl_atom.cpp:72-104): the new `z`,
the new `td_idx` and the returned value.  An undeclared variable has index 0. -/
def sigRob (env : Env) (s : St) (var : String) (smap : Assoc ℕ) (td : Option ℕ) :
    M (Signal × Option ℕ × ℚ) :=
  match (smap.lookup var).getD 0 with
  | 0 => do
    let z ← leafTrim s.start s.stop s.z 0 0
    let p ← z.front
    .ok (z, td, p.value)
  | i + 1 =>
    match td with
    | none => .error .ub
    | some td =>
      if env.data = [] ∧ 0 ≤ s.stop then .error outOfRange
      else do
        let (z, td', t, v) ← sigRead env.ip (i + 1) s.stop (env.data.drop td) s.z td 0 0
        let z ← leafTrim s.start s.stop z t v
        let p ← z.front
        .ok (z, some td', p.value)

/-- The parameter lookup of `constant_transducer::compute_robustness`
(src/stl_atom.cpp:114-118): a name that is not in the map gives 0. -/
def constValue (params : Assoc ℚ) (param : String) (value : ℚ) : ℚ :=
  if param = "" then value else (params.lookup param).getD 0

/-- `constant_transducer::compute_robustness` (src/stl_atom.cpp:106-141). -/
def constRob (env : Env) (s : St) (value : ℚ) (td : Option ℕ) : M (Signal × Option ℕ) :=
  match td with
  | none => .error .ub
  | some td =>
    if env.data = [] ∧ 0 ≤ s.stop then .error outOfRange
    else do
      let (z, td', t) ← constRead env.ip value s.stop (env.data.drop td) s.z td 0
      let z ← leafTrim s.start s.stop z t value
      .ok (z, some td')

/-- The loops of the binary signal operators (src/signal_expr.cpp:47-53, 65-71, 83-89):
the right iterator is advanced without a check, so a shorter right operand is
undefined behaviour. -/
def binLoop (ip : Interpol) (f : ℚ → ℚ → ℚ) (z : Signal) : List Sample → List Sample → M Signal
  | [], _ => .ok z
  | _ :: _, [] => .error .ub
  | p :: ps, q :: qs => do
    let z' ← z.appendSample0 ip p.time (f p.value q.value)
    binLoop ip f z' ps qs

/-- The loop of `abs_transducer::compute_robustness` (src/signal_expr.cpp:26-31). -/
def absLoop (ip : Interpol) (z : Signal) : List Sample → M Signal
  | [] => .ok z
  | p :: ps => do
    let z' ← z.appendSample0 ip p.time |p.value|
    absLoop ip z' ps

/-- The loop of `stl_atom::compute_robustness` (src/stl_atom.cpp:36-47). -/
def atomLoop (ip : Interpol) (k : Cmp) (z : Signal) : List Sample → List Sample → M Signal
  | p :: ps, q :: qs => do
    let z' ← (match k with
      | .less => z.appendSample ip p.time (q.value - p.value) (q.derivative - p.derivative)
      | .greater => z.appendSample ip p.time (p.value - q.value) (p.derivative - q.derivative))
    atomLoop ip k z' ps qs
  | _, _ => .ok z

/-- `stl_atom::compute_robustness` after the children ran (src/stl_atom.cpp:34-65). -/
def atomRob (env : Env) (k : Cmp) (z zl zr : Signal) : M Signal := do
  let z ← atomLoop env.ip k z zl.samples zr.samples
  let z := { z with endTime := zl.endTime }
  match env.sem with
  | .SPACE => .ok z
  | .LEFT_TIME => Signal.computeLeftTimeRob z
  | .RIGHT_TIME => Signal.computeRightTimeRob z
  | .BOOLEAN => .error (.exn "Invalid semantics value")

/-- `and_transducer::compute_robustness` after the children ran
(src/transducer.cpp:219-225). -/
def andRob (zl zr : Signal) : M Signal :=
  let et := max zl.endTime zr.endTime
  Signal.computeAndM { zl with endTime := et } { zr with endTime := et }

/-- `or_transducer::compute_robustness` after the children ran
(src/transducer.cpp:243-250). -/
def orRob (zl zr : Signal) : M Signal :=
  let et := max zl.endTime zr.endTime
  Signal.computeOrM { zl with endTime := et } { zr with endTime := et }

/-- `ev_transducer::compute_robustness` after the child ran (src/transducer.cpp:166-179):
the new `z` and the new `child->z`. -/
def evRob (B : ℚ) (s : St) (a b : ℚ) (zc : Signal) : M (Signal × Signal) := do
  let z ← Signal.computeTimedEventually B s.z zc a b
  let et := min z.endTime s.stop
  let zc' ← zc.resize (et - b) zc.endTime 0
  let z ← z.resize s.start (max s.start et) 0
  .ok (z, zc')

/-- `alw_transducer::compute_robustness` after the child ran
(src/transducer.cpp:200-202). -/
def alwRob (B : ℚ) (s : St) (a b : ℚ) (zc : Signal) : M Signal := do
  let z ← Signal.computeTimedGlobally B s.z zc a b
  let et := min z.endTime s.stop
  z.resize s.start (max s.start et) 0

/-- `until_transducer::compute_robustness` after the children ran
(src/transducer.cpp:283-284). -/
def untilRob (B : ℚ) (s : St) (a b : ℚ) (zl zr : Signal) : M Signal := do
  let z ← Signal.computeTimedUntil B s.z zl zr a b
  z.resize 0 z.endTime 0

/-- Assigning `child->z` (src/transducer.cpp:177). -/
def setZ (z : Signal) (T : Tr) : Tr := T.setSt { T.st with z := z }

/-- `compute_robustness` of every class (src/transducer.cpp:145-286,
src/stl_atom.cpp:24-141, src/signal_expr.cpp:19-91): the mutated tree and the returned
value. -/
def computeRob (env : Env) : Tr → M (Tr × ℚ)
  | sig s v m td => do
    let (z, td, r) ← sigRob env s v m td
    .ok (sig { s with z := z } v m td, r)
  | const s p v td => do
    let v := constValue env.params p v
    let (z, td) ← constRob env s v td
    .ok (const { s with z := z } p v td, v)
  | abs s c => do
    let (c, _) ← computeRob env c
    let z ← absLoop env.ip s.z c.st.z.samples
    let p ← z.front
    .ok (abs { s with z := z } c, p.value)
  | plus s l r => do
    let (l, _) ← computeRob env l
    let (r, _) ← computeRob env r
    let z ← binLoop env.ip (· + ·) s.z l.st.z.samples r.st.z.samples
    let p ← z.front
    .ok (plus { s with z := z } l r, p.value)
  | minus s l r => do
    let (l, _) ← computeRob env l
    let (r, _) ← computeRob env r
    let z ← binLoop env.ip (· - ·) s.z l.st.z.samples r.st.z.samples
    let p ← z.front
    .ok (minus { s with z := z } l r, p.value)
  | mult s l r => do
    let (l, _) ← computeRob env l
    let (r, _) ← computeRob env r
    let z ← binLoop env.ip (· * ·) s.z l.st.z.samples r.st.z.samples
    let p ← z.front
    .ok (mult { s with z := z } l r, p.value)
  | atom s k l r => do
    let (l, _) ← computeRob env l
    let (r, _) ← computeRob env r
    let z ← atomRob env k s.z l.st.z r.st.z
    let p ← z.front
    .ok (atom { s with z := z } k l r, p.value)
  | not s c => do
    let (c, _) ← computeRob env c
    let z := Signal.computeNot c.st.z
    let p ← z.front
    .ok (not { s with z := z } c, p.value)
  | and s l r => do
    let (l, _) ← computeRob env l
    let (r, _) ← computeRob env r
    let z ← andRob l.st.z r.st.z
    let p ← z.front
    .ok (and { s with z := z } l r, p.value)
  | or s l r => do
    let (l, _) ← computeRob env l
    let (r, _) ← computeRob env r
    let z ← orRob l.st.z r.st.z
    let p ← z.front
    .ok (or { s with z := z } l r, p.value)
  | implies s l r => do
    let (l, _) ← computeRob env l
    let (r, _) ← computeRob env r
    let z ← Signal.computeImpliesM l.st.z r.st.z
    let p ← z.front
    .ok (implies { s with z := z } l r, p.value)
  | ev s I c => do
    let (c, _) ← computeRob env c
    let (z, zc) ← evRob env.B s (ivA env.params I) (ivB env.params I) c.st.z
    let p ← z.front
    .ok (ev { s with z := z } I (setZ zc c), p.value)
  | alw s I c => do
    let (c, _) ← computeRob env c
    let z ← alwRob env.B s (ivA env.params I) (ivB env.params I) c.st.z
    let p ← z.front
    .ok (alw { s with z := z } I c, p.value)
  | untl s l I r => do
    let (l, _) ← computeRob env l
    let (r, _) ← computeRob env r
    let z ← untilRob env.B s (ivA env.params I) (ivB env.params I) l.st.z r.st.z
    let p ← z.front
    .ok (untl { s with z := z } l I r, p.value)

/-! ## Lower and upper bounds -/

/-- `if (z.empty()) z.appendSample(start_time, c)` (e.g.
src/interval_transducer.cpp:54-55). -/
def appendIfEmpty (ip : Interpol) (z : Signal) (t c : ℚ) : M Signal :=
  if z.samples = [] then z.appendSample0 ip t c else .ok z

/-- `transducer::compute_lower_rob` after `compute_robustness`
(src/interval_transducer.cpp:18-23). -/
def defaultLow (env : Env) (s : St) : M Signal :=
  if s.z.endTime < s.start then s.zlow.appendSample0 env.ip s.start (-env.B) else .ok s.z

/-- `transducer::compute_upper_rob` after `compute_robustness`
(src/interval_transducer.cpp:35-39): it also appends `BOTTOM`. -/
def defaultUp (env : Env) (s : St) : M Signal :=
  if s.z.endTime < s.start then s.zup.appendSample0 env.ip s.start (-env.B) else .ok s.z

/-- `and_transducer::compute_lower_rob` after the children
(src/interval_transducer.cpp:53-56). -/
def andLow (env : Env) (s : St) (zl zr : Signal) : M Signal := do
  let z ← Signal.computeAndM zl zr
  let z ← z.resize s.start (min zl.endTime zr.endTime) (-env.B)
  appendIfEmpty env.ip z s.start (-env.B)

/-- `and_transducer::compute_upper_rob` after the children
(src/interval_transducer.cpp:69-72). -/
def andUp (env : Env) (s : St) (zl zr : Signal) : M Signal := do
  let z ← Signal.computeAndM zl zr
  let z ← z.resize s.start z.endTime env.B
  appendIfEmpty env.ip z s.start env.B

/-- `or_transducer::compute_lower_rob` after the children
(src/interval_transducer.cpp:83-86). -/
def orLow (env : Env) (s : St) (zl zr : Signal) : M Signal := do
  let z ← Signal.computeOrM zl zr
  let z ← z.resize s.start z.endTime (-env.B)
  appendIfEmpty env.ip z s.start (-env.B)

/-- `or_transducer::compute_upper_rob` after the children
(src/interval_transducer.cpp:93-96). -/
def orUp (env : Env) (s : St) (zl zr : Signal) : M Signal := do
  let z ← Signal.computeOrM zl zr
  let z ← z.resize s.start (min zl.endTime zr.endTime) env.B
  appendIfEmpty env.ip z s.start env.B

/-- `implies_transducer::compute_lower_rob` after the children
(src/interval_transducer.cpp:106-112); `zl` is the left child's upper signal. -/
def impliesLow (env : Env) (s : St) (zl zr : Signal) : M Signal := do
  let z ← Signal.computeOrM (Signal.computeNot zl) zr
  let z ← z.resize s.start z.endTime (-env.B)
  appendIfEmpty env.ip z s.start (-env.B)

/-- `implies_transducer::compute_upper_rob` after the children
(src/interval_transducer.cpp:120-126); `zl` is the left child's lower signal. -/
def impliesUp (env : Env) (s : St) (zl zr : Signal) : M Signal := do
  let z1 := Signal.computeNot zl
  let z ← Signal.computeOrM z1 zr
  let z ← z.resize s.start (min z1.endTime zr.endTime) env.B
  appendIfEmpty env.ip z s.start env.B

/-- `ev_transducer::compute_lower_rob` after the child
(src/interval_transducer.cpp:166-181): new `z_low` and returned value. -/
def evLow (env : Env) (s : St) (a b : ℚ) (zc : Signal) : M (Signal × ℚ) :=
  if zc.endTime < a then do
    let z ← s.zlow.appendSample0 env.ip s.start (-env.B)
    .ok (z, -env.B)
  else do
    let z ← Signal.computeTimedEventually env.B s.zlow zc a b
    let z ← z.resize s.start (max s.start (min z.endTime s.stop)) 0
    let z ← appendIfEmpty env.ip z s.start (-env.B)
    let p ← z.front
    .ok (z, p.value)

/-- `ev_transducer::compute_upper_rob` after the child
(src/interval_transducer.cpp:200-217). -/
def evUp (env : Env) (s : St) (a b : ℚ) (zc : Signal) : M (Signal × ℚ) :=
  if zc.endTime < a then do
    let z ← s.zup.appendSample0 env.ip s.start env.B
    .ok (z, env.B)
  else do
    let z ← Signal.computeTimedEventually env.B s.zup zc a b
    let z ← z.resize s.start (min (z.endTime - b + a) s.stop) 0
    let z ← appendIfEmpty env.ip z s.start env.B
    let p ← z.front
    .ok (z, p.value)

/-- `alw_transducer::compute_lower_rob` after the child
(src/interval_transducer.cpp:237-256). -/
def alwLow (env : Env) (s : St) (a b : ℚ) (zc : Signal) : M (Signal × ℚ) :=
  if zc.endTime < a then do
    let z ← s.zlow.appendSample0 env.ip s.start (-env.B)
    .ok (z, -env.B)
  else do
    let z ← Signal.computeTimedGlobally env.B s.zlow zc a b
    let z ← z.resize s.start (min (z.endTime - b + a) s.stop) 0
    let z ← appendIfEmpty env.ip z s.start (-env.B)
    let p ← z.front
    .ok (z, p.value)

/-- `alw_transducer::compute_upper_rob` after the child
(src/interval_transducer.cpp:271-288). -/
def alwUp (env : Env) (s : St) (a b : ℚ) (zc : Signal) : M (Signal × ℚ) :=
  if zc.endTime < a then do
    let z ← s.zup.appendSample0 env.ip s.start env.B
    .ok (z, env.B)
  else do
    let z ← Signal.computeTimedGlobally env.B s.zup zc a b
    let z ← z.resize s.start (max s.start (min z.endTime s.stop)) 0
    let z ← appendIfEmpty env.ip z s.start env.B
    let p ← z.front
    .ok (z, p.value)

/-- `until_transducer::compute_lower_rob` after the children
(src/interval_transducer.cpp:303-311). -/
def untilLow (env : Env) (s : St) (a b : ℚ) (zl zr : Signal) : M (Signal × ℚ) := do
  let z ← Signal.computeTimedUntil env.B s.zlow zl zr a b
  let z ← z.resize s.start (max s.start (min z.endTime s.stop)) 0
  match z.samples with
  | [] => .ok (z, -env.B)
  | p :: _ => .ok (z, p.value)

/-- `until_transducer::compute_upper_rob` after the children
(src/interval_transducer.cpp:323-330). -/
def untilUp (env : Env) (s : St) (a b : ℚ) (zl zr : Signal) : M (Signal × ℚ) := do
  let z ← Signal.computeTimedUntil env.B s.zup zl zr a b
  let z ← z.resize s.start (max s.start (min (z.endTime - b) s.stop)) 0
  match z.samples with
  | [] => .ok (z, env.B)
  | p :: _ => .ok (z, p.value)

mutual
/-- `compute_lower_rob` of every class (src/interval_transducer.cpp:13-313). -/
def computeLow (env : Env) : Tr → M (Tr × ℚ)
  | and s l r => do
    let (l, _) ← computeLow env l
    let (r, _) ← computeLow env r
    let z ← andLow env s l.st.zlow r.st.zlow
    let p ← z.front
    .ok (and { s with zlow := z } l r, p.value)
  | or s l r => do
    let (l, _) ← computeLow env l
    let (r, _) ← computeLow env r
    let z ← orLow env s l.st.zlow r.st.zlow
    let p ← z.front
    .ok (or { s with zlow := z } l r, p.value)
  | implies s l r => do
    let (l, _) ← computeUp env l
    let (r, _) ← computeLow env r
    let z ← impliesLow env s l.st.zup r.st.zlow
    let p ← z.front
    .ok (implies { s with zlow := z } l r, p.value)
  | not s c => do
    let (c, _) ← computeUp env c
    if c.st.zup.samples = [] then do
      let z ← s.zlow.appendSample0 env.ip s.start (-env.B)
      .ok (not { s with zlow := z } c, -env.B)
    else do
      let z := Signal.computeNot c.st.zup
      let p ← z.front
      .ok (not { s with zlow := z } c, p.value)
  | ev s I c => do
    let (c, _) ← computeLow env c
    let (z, r) ← evLow env s (ivA env.params I) (ivB env.params I) c.st.zlow
    .ok (ev { s with zlow := z } I c, r)
  | alw s I c => do
    let (c, _) ← computeLow env c
    let (z, r) ← alwLow env s (ivA env.params I) (ivB env.params I) c.st.zlow
    .ok (alw { s with zlow := z } I c, r)
  | untl s l I r => do
    let (l, vl) ← computeLow env l
    if vl = -env.B then .ok (untl s l I r, -env.B)
    else do
      let (r, vr) ← computeLow env r
      if vr = -env.B then .ok (untl s l I r, -env.B)
      else do
        let (z, v) ← untilLow env s (ivA env.params I) (ivB env.params I) l.st.zlow r.st.zlow
        .ok (untl { s with zlow := z } l I r, v)
  | sig s v m td => do
    let (T, _) ← computeRob env (sig s v m td)
    let z ← defaultLow env T.st
    let p ← z.front
    .ok (T.setSt { T.st with zlow := z }, p.value)
  | const s v m td => do
    let (T, _) ← computeRob env (const s v m td)
    let z ← defaultLow env T.st
    let p ← z.front
    .ok (T.setSt { T.st with zlow := z }, p.value)
  | abs s c => do
    let (T, _) ← computeRob env (abs s c)
    let z ← defaultLow env T.st
    let p ← z.front
    .ok (T.setSt { T.st with zlow := z }, p.value)
  | plus s l r => do
    let (T, _) ← computeRob env (plus s l r)
    let z ← defaultLow env T.st
    let p ← z.front
    .ok (T.setSt { T.st with zlow := z }, p.value)
  | minus s l r => do
    let (T, _) ← computeRob env (minus s l r)
    let z ← defaultLow env T.st
    let p ← z.front
    .ok (T.setSt { T.st with zlow := z }, p.value)
  | mult s l r => do
    let (T, _) ← computeRob env (mult s l r)
    let z ← defaultLow env T.st
    let p ← z.front
    .ok (T.setSt { T.st with zlow := z }, p.value)
  | atom s k l r => do
    let (T, _) ← computeRob env (atom s k l r)
    let z ← defaultLow env T.st
    let p ← z.front
    .ok (T.setSt { T.st with zlow := z }, p.value)

/-- `compute_upper_rob` of every class (src/interval_transducer.cpp:30-332). -/
def computeUp (env : Env) : Tr → M (Tr × ℚ)
  | and s l r => do
    let (l, _) ← computeUp env l
    let (r, _) ← computeUp env r
    let z ← andUp env s l.st.zup r.st.zup
    let p ← z.front
    .ok (and { s with zup := z } l r, p.value)
  | or s l r => do
    let (l, _) ← computeUp env l
    let (r, _) ← computeUp env r
    let z ← orUp env s l.st.zup r.st.zup
    let p ← z.front
    .ok (or { s with zup := z } l r, p.value)
  | implies s l r => do
    let (l, _) ← computeLow env l
    let (r, _) ← computeUp env r
    let z ← impliesUp env s l.st.zlow r.st.zup
    let p ← z.front
    .ok (implies { s with zup := z } l r, p.value)
  | not s c => do
    let (c, _) ← computeLow env c
    if c.st.zlow.samples = [] then do
      let z ← s.zup.appendSample0 env.ip s.start env.B
      .ok (not { s with zup := z } c, env.B)
    else do
      let z := Signal.computeNot c.st.zlow
      let p ← z.front
      .ok (not { s with zup := z } c, p.value)
  | ev s I c => do
    let (c, _) ← computeUp env c
    let (z, r) ← evUp env s (ivA env.params I) (ivB env.params I) c.st.zup
    .ok (ev { s with zup := z } I c, r)
  | alw s I c => do
    let (c, _) ← computeUp env c
    let (z, r) ← alwUp env s (ivA env.params I) (ivB env.params I) c.st.zup
    .ok (alw { s with zup := z } I c, r)
  | untl s l I r => do
    let (l, vl) ← computeUp env l
    if vl = env.B then .ok (untl s l I r, env.B)
    else do
      let (r, vr) ← computeUp env r
      if vr = env.B then .ok (untl s l I r, env.B)
      else do
        let (z, v) ← untilUp env s (ivA env.params I) (ivB env.params I) l.st.zup r.st.zup
        .ok (untl { s with zup := z } l I r, v)
  | sig s v m td => do
    let (T, _) ← computeRob env (sig s v m td)
    let z ← defaultUp env T.st
    let p ← z.front
    .ok (T.setSt { T.st with zup := z }, p.value)
  | const s v m td => do
    let (T, _) ← computeRob env (const s v m td)
    let z ← defaultUp env T.st
    let p ← z.front
    .ok (T.setSt { T.st with zup := z }, p.value)
  | abs s c => do
    let (T, _) ← computeRob env (abs s c)
    let z ← defaultUp env T.st
    let p ← z.front
    .ok (T.setSt { T.st with zup := z }, p.value)
  | plus s l r => do
    let (T, _) ← computeRob env (plus s l r)
    let z ← defaultUp env T.st
    let p ← z.front
    .ok (T.setSt { T.st with zup := z }, p.value)
  | minus s l r => do
    let (T, _) ← computeRob env (minus s l r)
    let z ← defaultUp env T.st
    let p ← z.front
    .ok (T.setSt { T.st with zup := z }, p.value)
  | mult s l r => do
    let (T, _) ← computeRob env (mult s l r)
    let z ← defaultUp env T.st
    let p ← z.front
    .ok (T.setSt { T.st with zup := z }, p.value)
  | atom s k l r => do
    let (T, _) ← computeRob env (atom s k l r)
    let z ← defaultUp env T.st
    let p ← z.front
    .ok (T.setSt { T.st with zup := z }, p.value)
end

/-- `transducer::get_signal` (src/transducer.cpp:290-292). -/
def getSignal (T : Tr) : Signal := T.st.z

end Tr
end STLRom
