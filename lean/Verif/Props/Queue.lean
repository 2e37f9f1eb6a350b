import Verif.Proofs.History
import Mathlib.Tactic.NormNum

/-!
# Property C51: the test queue of a driver
-/

namespace STLRom
namespace Props
open Driver

/-- The calls that touch the test queue. -/
inductive QCall where
  | trace (id env : String) (simTime : ℚ) (visu : Bool)
  | add1 (id : String)
  | add2 (id : String) (local_ : Assoc ℚ)
  | add6 (id : String) (local_ : Assoc ℚ) (f : Tr) (pos neg : String) (isErr : Bool)
  | run

/-- Is the call one of the three `add_stl_test`? -/
def QCall.isAdd : QCall → Bool
  | add1 _ | add2 _ _ | add6 _ _ _ _ _ _ => true
  | _ => false

/-- One call on a driver. -/
def QCall.exec (g : Globals) (fmt : ℚ → String) (d : Driver) : QCall → M Driver
  | trace i e s v => .ok (d.addTraceTest i e s v)
  | add1 i => .ok (d.addStlTest1 i)
  | add2 i l => .ok (d.addStlTest2 i l)
  | add6 i l f p n b => .ok (d.addStlTest6 i l f p n b)
  | run => (d.runTests g fmt).map Prod.fst

/-- A sequence of calls. -/
def QCall.execs (g : Globals) (fmt : ℚ → String) (d : Driver) (cs : List QCall) : M Driver :=
  cs.foldlM (QCall.exec g fmt) d

/-- The robustness `run_tests` finds for a test, on the data and statics of the moment. -/
def Verdict (g : Globals) (data : List (List ℚ)) (t : StlTest) (r : ℚ) : Prop :=
  ∃ T T', t.formula = some T ∧
    (T.setHorizon [] T.st.start T.st.stop).computeRob ⟨g.B, g.sem, g.ip, data, []⟩ = .ok (T', r)

/-! ## The loop of run_tests -/

/-- What a run of the loop leaves alone. -/
structure SameRest (d d' : Driver) : Prop where
  data : d'.data = d.data
  total : d'.nbTotal = d.nbTotal
  queue : d'.queue = d.queue
  params : d'.params = d.params
  smap : d'.smap = d.smap
  formulas : d'.formulas = d.formulas
  stlTests : d'.stlTests = d.stlTests
  sem : d'.sem = d.sem
  ip : d'.ip = d.ip

theorem SameRest.trans {a b c : Driver} (h : SameRest a b) (k : SameRest b c) : SameRest a c :=
  ⟨k.data.trans h.data, k.total.trans h.total, k.queue.trans h.queue, k.params.trans h.params,
    k.smap.trans h.smap, k.formulas.trans h.formulas, k.stlTests.trans h.stlTests,
    k.sem.trans h.sem, k.ip.trans h.ip⟩

theorem SameRest.refl (a : Driver) : SameRest a a := ⟨rfl, rfl, rfl, rfl, rfl, rfl, rfl, rfl, rfl⟩

theorem runOne_of_verdict {g : Globals} {fmt : ℚ → String} {d : Driver} {t : StlTest} {r : ℚ}
    (h : Verdict g d.data t r) : ∃ d', runOne g fmt d t = .ok d' ∧ SameRest d d' ∧
      d'.nbPos = d.nbPos + (if 0 < r then 1 else 0) ∧
      d'.errorFlag = (d.errorFlag || (t.isError && decide (0 < r))) ∧
      d'.testLog = d.testLog ++ (t.testId ++ ": " ++ fmt r ++ "\n") := by
  obtain ⟨T, T', h1, h2⟩ := h
  rw [runOne, h1]
  simp only [h2, bind, Except.bind]
  by_cases hr : 0 < r
  · rw [if_pos hr]
    refine ⟨_, rfl, ⟨rfl, rfl, rfl, rfl, rfl, rfl, rfl, rfl, rfl⟩, ?_, ?_, rfl⟩
    · simp [hr]
    · cases t.isError <;> simp [hr]
  · rw [if_neg hr]
    refine ⟨_, rfl, ⟨rfl, rfl, rfl, rfl, rfl, rfl, rfl, rfl, rfl⟩, ?_, ?_, rfl⟩
    · simp [hr]
    · simp [hr]

theorem verdict_of_runOne {g : Globals} {fmt : ℚ → String} {d d' : Driver} {t : StlTest}
    (h : runOne g fmt d t = .ok d') : ∃ r, Verdict g d.data t r := by
  rw [runOne] at h
  cases hf : t.formula with
  | none => rw [hf] at h; cases h
  | some T =>
    simp only [hf] at h
    cases hc : (T.setHorizon [] T.st.start T.st.stop).computeRob ⟨g.B, g.sem, g.ip, d.data, []⟩ with
    | error f => rw [hc] at h; cases h
    | ok p => exact ⟨p.2, T, p.1, hf, hc⟩

theorem runLoop_of_verdicts {g : Globals} {fmt : ℚ → String} : ∀ {ts : List StlTest} {rs : List ℚ}
    {d : Driver}, List.Forall₂ (Verdict g d.data) ts rs →
    ∃ d', runLoop g fmt d ts = .ok d' ∧ SameRest d d' ∧
      d'.nbPos = d.nbPos + rs.countP (fun r => decide (0 < r)) ∧
      d'.errorFlag = (d.errorFlag || (ts.zip rs).any fun p => p.1.isError && decide (0 < p.2)) := by
  intro ts
  induction ts with
  | nil =>
    intro rs d h
    cases h
    exact ⟨d, rfl, .refl d, by simp, by simp⟩
  | cons t ts ih =>
    intro rs d h
    cases h with
    | @cons _ r _ rs h1 h2 =>
      obtain ⟨d1, e1, s1, p1, f1, _⟩ := runOne_of_verdict (fmt := fmt) h1
      rw [← s1.data] at h2
      obtain ⟨d2, e2, s2, p2, f2⟩ := ih h2
      refine ⟨d2, ?_, s1.trans s2, ?_, ?_⟩
      · rw [runLoop, e1]
        exact e2
      · rw [p2, p1, List.countP_cons]
        by_cases hr : 0 < r <;> simp [hr]
        omega
      · rw [f2, f1]
        simp [Bool.or_assoc]

theorem verdicts_of_runLoop {g : Globals} {fmt : ℚ → String} : ∀ {ts : List StlTest}
    {d d' : Driver}, runLoop g fmt d ts = .ok d' → ∃ rs, List.Forall₂ (Verdict g d.data) ts rs := by
  intro ts
  induction ts with
  | nil => intro d d' _; exact ⟨[], .nil⟩
  | cons t ts ih =>
    intro d d' h
    rw [runLoop] at h
    cases h1 : runOne g fmt d t with
    | error f => rw [h1] at h; cases h
    | ok d1 =>
      rw [h1] at h
      obtain ⟨r, hr⟩ := verdict_of_runOne h1
      obtain ⟨d2, e2, s2, _⟩ := runOne_of_verdict (fmt := fmt) hr
      rw [h1] at e2
      cases e2
      obtain ⟨rs, hrs⟩ := ih h
      rw [s2.data] at hrs
      exact ⟨r :: rs, .cons hr hrs⟩

/-! ## C51 -/

/-- C51, running: when `run_tests` returns, it has consumed exactly the front trace test, counted
its positive tests, and raised the flag iff some `is_error` test is positive.  Everything else
that the queue calls use is unchanged. -/
theorem C51_run {g : Globals} {fmt : ℚ → String} {d d' : Driver} {e : Bool}
    (h : d.runTests g fmt = .ok (d', e)) :
    ∃ q qs rs, d.queue = q :: qs ∧ d'.queue = qs ∧
      List.Forall₂ (Verdict g d.data) q.tests rs ∧
      d'.nbPos = d.nbPos + rs.countP (fun r => decide (0 < r)) ∧
      (e = true ↔ ∃ p ∈ q.tests.zip rs, p.1.isError = true ∧ 0 < p.2) ∧ d'.errorFlag = e ∧
      d'.nbTotal = d.nbTotal ∧ d'.data = d.data ∧ d'.stlTests = d.stlTests ∧
      d'.params = d.params ∧ d'.formulas = d.formulas := by
  rw [runTests.eq_def] at h
  cases hq : d.queue with
  | nil => rw [hq] at h; cases h
  | cons q qs =>
    simp only [hq, bind, Except.bind] at h
    split at h
    · cases h
    rename_i d2 h2
    injection h with h
    injection h with h3 h4
    obtain ⟨rs, hrs⟩ := verdicts_of_runLoop h2
    obtain ⟨d3, e3, s3, p3, f3⟩ := runLoop_of_verdicts (fmt := fmt) hrs
    rw [h2] at e3
    cases e3
    subst h3 h4
    refine ⟨q, qs, rs, rfl, rfl, hrs, p3, ?_, rfl, s3.total, s3.data, s3.stlTests, s3.params,
      s3.formulas⟩
    rw [f3]
    simp

/-- Conversely it returns whenever the queue is not empty and every test of the front trace test
can be evaluated. -/
theorem C51_run_returns {g : Globals} (fmt : ℚ → String) {d : Driver} {q : TraceTest}
    {qs : List TraceTest} {rs : List ℚ} (hq : d.queue = q :: qs)
    (h : List.Forall₂ (Verdict g d.data) q.tests rs) : ∃ d' e, d.runTests g fmt = .ok (d', e) := by
  obtain ⟨d', e, _⟩ := runLoop_of_verdicts (fmt := fmt)
    (d := { d with errorFlag := false, report := d.report ++ ("stl_test " ++ q.id ++ "\n") }) h
  refine ⟨{ d' with report := d'.report ++ "\n", queue := qs }, d'.errorFlag, ?_⟩
  rw [hq] at e
  rw [runTests.eq_def]
  simp only [hq, bind, Except.bind, e]

/-- C51, counting: over every sequence of queue calls, `nb_test_total` grows by the number of
`add_stl_test` calls. -/
theorem C51_total {g : Globals} {fmt : ℚ → String} : ∀ {cs : List QCall} {d d' : Driver},
    QCall.execs g fmt d cs = .ok d' → d'.nbTotal = d.nbTotal + cs.countP QCall.isAdd := by
  intro cs
  induction cs with
  | nil =>
    intro d d' h
    cases h
    simp
  | cons c cs ih =>
    intro d d' h
    rw [QCall.execs, List.foldlM_cons] at h
    cases h1 : QCall.exec g fmt d c with
    | error f => rw [h1] at h; cases h
    | ok d1 =>
      rw [h1] at h
      rw [ih h, List.countP_cons]
      have : d1.nbTotal = d.nbTotal + (if c.isAdd then 1 else 0) := by
        cases c with
        | trace i e s v => cases h1; rfl
        | add1 i =>
          injection h1 with h1
          subst h1
          rw [addStlTest1]
          split <;> simp [QCall.isAdd]
        | add2 i l =>
          injection h1 with h1
          subst h1
          rw [addStlTest2]
          split <;> simp [QCall.isAdd]
        | add6 i l f p n b =>
          injection h1 with h1
          subst h1
          rw [addStlTest6]
          simp only
          split <;> simp [QCall.isAdd]
        | run =>
          simp only [QCall.exec] at h1
          cases h2 : d.runTests g fmt with
          | error f => rw [h2] at h1; cases h1
          | ok p =>
            rw [h2] at h1
            cases h1
            obtain ⟨_, _, _, _, _, _, _, _, _, k, _⟩ := C51_run (d' := p.1) (e := p.2) h2
            simp [k, QCall.isAdd]
      omega

/-- C51, closed queue: without a trace test no call of `add_stl_test` queues or records
anything. -/
theorem C51_closed {g : Globals} {fmt : ℚ → String} {d d' : Driver} {c : QCall}
    (hc : c.isAdd = true) (hq : d.queue = []) (h : QCall.exec g fmt d c = .ok d') :
    d' = { d with nbTotal := d.nbTotal + 1 } := by
  cases c with
  | trace i e s v => cases hc
  | run => cases hc
  | add1 i =>
    injection h with h
    subst h
    rw [addStlTest1]
    split
    · rfl
    · simp [pushTest, hq]
  | add2 i l =>
    injection h with h
    subst h
    rw [addStlTest2]
    split
    · rfl
    · simp [pushTest, hq]
  | add6 i l f p n b =>
    injection h with h
    subst h
    simp [addStlTest6, hq]

/-- C51, open queue: a new test goes to the end of the last trace test and is remembered under its
name; the earlier trace tests are untouched. -/
theorem C51_open_new {d : Driver} {qs : List TraceTest} {b : TraceTest} (hq : d.queue = qs ++ [b])
    (i : String) (l : Assoc ℚ) (f : Tr) (p n : String) (er : Bool) :
    (d.addStlTest6 i l f p n er).queue =
      qs ++ [{ b with tests := b.tests ++ [⟨i, l, some f.clone, p, n, er⟩] }] ∧
    (d.addStlTest6 i l f p n er).stlTests.lookup i = some ⟨i, l, some f.clone, p, n, er⟩ := by
  rw [addStlTest6]
  simp [pushTest, hq, Assoc.lookup_set]

/-- C51, open queue: a known test goes to the end of the last trace test, with the local
parameters of the call; an unknown name queues nothing. -/
theorem C51_open_known {d : Driver} {qs : List TraceTest} {b : TraceTest} {t : StlTest}
    {i : String} (hq : d.queue = qs ++ [b]) (ht : d.stlTests.lookup i = some t) (l : Assoc ℚ) :
    (d.addStlTest2 i l).queue = qs ++ [{ b with
      tests := b.tests ++ [{ t with formula := t.formula.map Tr.clone, params := l }] }] ∧
    (d.addStlTest1 i).queue = qs ++ [{ b with
      tests := b.tests ++ [{ t with formula := t.formula.map Tr.clone, params := [] }] }] := by
  simp [addStlTest2, addStlTest1, ht, pushTest, hq]

theorem C51_unknown {d : Driver} {i : String} (ht : d.stlTests.lookup i = none) (l : Assoc ℚ) :
    (d.addStlTest2 i l).queue = d.queue ∧ (d.addStlTest1 i).queue = d.queue := by
  simp [addStlTest2, addStlTest1, ht]

/-! ## run_tests on a parsed formula -/

/-- A formula as the parser builds it: no leaf has been bound to a trace yet, and every signal is
declared. -/
def Unbound : Tr → Prop
  | .sig _ v m td => td = none ∧ ∃ i, m.lookup v = some (i + 1)
  | .const _ _ _ td => td = none
  | .abs _ c | .not _ c | .ev _ _ c | .alw _ _ c => Unbound c
  | .plus _ l r | .minus _ l r | .mult _ l r | .atom _ _ l r | .and _ l r | .or _ l r
  | .implies _ l r | .untl _ l _ r => Unbound l ∧ Unbound r

theorem Unbound.clone : ∀ {T : Tr}, Unbound T → Unbound T.clone := by
  intro T
  induction T <;> simp_all [Unbound, Tr.clone]

theorem Unbound.setHorizon (params : Assoc ℚ) : ∀ {T : Tr} (s e : ℚ), Unbound T →
    Unbound (T.setHorizon params s e) := by
  intro T
  induction T <;> intro s e h <;> simp_all [Unbound, Tr.setHorizon]

theorem Unbound.undefined (env : Env) : ∀ {T : Tr}, Unbound T → T.computeRob env = .error .ub := by
  intro T
  induction T with
  | sig s v m td =>
    rintro ⟨rfl, i, h⟩
    simp [Tr.computeRob, Tr.sigRob, h, bind, Except.bind]
  | const s p v td =>
    intro h
    simp only [Unbound] at h
    subst h
    rfl
  | abs s c ih => intro h; rw [Tr.computeRob, ih h]; rfl
  | not s c ih => intro h; rw [Tr.computeRob, ih h]; rfl
  | ev s I c ih => intro h; rw [Tr.computeRob, ih h]; rfl
  | alw s I c ih => intro h; rw [Tr.computeRob, ih h]; rfl
  | plus s l r ihl ihr => intro h; rw [Tr.computeRob, ihl h.1]; rfl
  | minus s l r ihl ihr => intro h; rw [Tr.computeRob, ihl h.1]; rfl
  | mult s l r ihl ihr => intro h; rw [Tr.computeRob, ihl h.1]; rfl
  | atom s k l r ihl ihr => intro h; rw [Tr.computeRob, ihl h.1]; rfl
  | and s l r ihl ihr => intro h; rw [Tr.computeRob, ihl h.1]; rfl
  | or s l r ihl ihr => intro h; rw [Tr.computeRob, ihl h.1]; rfl
  | implies s l r ihl ihr => intro h; rw [Tr.computeRob, ihl h.1]; rfl
  | untl s l I r ihl ihr => intro h; rw [Tr.computeRob, ihl h.1]; rfl

/-- `run_tests` assigns the trace pointer of the root instead of calling `set_trace_data_ptr`
(src/stl_driver.cpp:327): the leaves of a formula that was never evaluated read their
uninitialised `td_idx`. -/
theorem C51_run_undefined (g : Globals) (fmt : ℚ → String) {d : Driver} {q : TraceTest}
    {qs : List TraceTest} {t : StlTest} {ts : List StlTest} {T : Tr} (hq : d.queue = q :: qs)
    (ht : q.tests = t :: ts) (hT : t.formula = some T) (h : Unbound T) :
    d.runTests g fmt = .error .ub := by
  have := (h.setHorizon [] T.st.start T.st.stop).undefined ⟨g.B, g.sem, g.ip, d.data, []⟩
  rw [runTests.eq_def]
  simp only [hq, ht, runLoop, runOne, hT, this, bind, Except.bind]

/-- The part of C51 that says `run_tests` consumes the front trace test, for every history. -/
def C51_run_full : Prop := ∀ (g : Globals) (fmt : ℚ → String) (cs : List QCall) (d : Driver),
  QCall.execs g fmt Driver.init cs = .ok d → d.queue ≠ [] →
    ∃ d' e, d.runTests g fmt = .ok (d', e) ∧ d'.queue = d.queue.tail

/-- `x[t] > 0` as the parser builds it. -/
def freshAtom : Tr :=
  .atom .init .greater (.sig .init "x" [("x", 1)] none) (.const .init "" 0 none)

/-- C51 fails: open a trace test, add a test, run it. -/
theorem C51_false : ¬ C51_run_full := by
  intro h
  let g : Globals := ⟨1000000, .SPACE, .LINEAR⟩
  obtain ⟨d', e, h1, _⟩ := h g (fun _ => "")
    [.trace "a" "" 1 false, .add6 "t" [] freshAtom "" "" true] _ rfl (by decide)
  have : Unbound freshAtom := ⟨⟨rfl, 0, rfl⟩, rfl⟩
  rw [C51_run_undefined g (fun _ => "") (q := ⟨"a", "", 1, false, _⟩) rfl rfl rfl this.clone] at h1
  cases h1

/-- On an empty queue `run_tests` pops from an empty deque. -/
theorem C51_empty_undefined (g : Globals) (fmt : ℚ → String) {d : Driver} (h : d.queue = []) :
    d.runTests g fmt = .error .ub := by
  rw [runTests.eq_def, h]

/-! ## Instances -/

/-- `x[t] > 0` whose leaves were bound to a trace earlier and have not read it. -/
def boundAtom : Tr :=
  .atom .init .greater (.sig .init "x" [("x", 1)] (some 0)) (.const .init "" 0 (some 0))

/-- A driver with a trace of two rows and one trace test with an error test. -/
def testDriver : Driver :=
  { Driver.ofData [[0, 3], [1, 4]] with
    queue := [⟨"a", "", 1, false, [⟨"t", [], some boundAtom, "", "", true⟩]⟩, ⟨"b", "", 1, false, []⟩] }

theorem verdict_of_map {g : Globals} {data : List (List ℚ)} {t : StlTest} {T : Tr} {r : ℚ}
    (h : t.formula = some T) (hr : ((T.setHorizon [] T.st.start T.st.stop).computeRob
      ⟨g.B, g.sem, g.ip, data, []⟩).map Prod.snd = .ok r) : Verdict g data t r := by
  cases hc : (T.setHorizon [] T.st.start T.st.stop).computeRob ⟨g.B, g.sem, g.ip, data, []⟩ with
  | error f => rw [hc] at hr; cases hr
  | ok p =>
    rw [hc] at hr
    cases hr
    exact ⟨T, p.1, h, hc⟩

/-- Statics for the instances. -/
def someStatics : Globals := ⟨1000, .SPACE, .LINEAR⟩

theorem testDriver_verdict : List.Forall₂ (Verdict someStatics testDriver.data)
    [⟨"t", [], some boundAtom, "", "", true⟩] [3] :=
  .cons (verdict_of_map rfl (by decide +kernel)) .nil

example : ∃ d' e, testDriver.runTests someStatics (fun _ => "r") = .ok (d', e) ∧ e = true ∧
    d'.nbPos = 1 ∧ d'.queue = [⟨"b", "", 1, false, []⟩] := by
  obtain ⟨d', e, h⟩ := C51_run_returns (fun _ => "r") (d := testDriver) rfl testDriver_verdict
  refine ⟨d', e, h, ?_⟩
  obtain ⟨q, qs, rs, h1, h2, h3, h4, h5, _⟩ := C51_run h
  obtain ⟨rfl, rfl⟩ : _ ∧ _ := by simpa [testDriver] using h1
  have hr : rs = [3] := by
    cases h3 with
    | @cons _ r _ rs' hv hn =>
      cases hn
      obtain ⟨T, T', e1, e2⟩ := hv
      cases e1
      have : (Except.ok (T', r) : M _).map Prod.snd = .ok 3 := by
        rw [← e2]
        decide +kernel
      injection this with this
      rw [← this]
  subst hr
  refine ⟨h5.2 ⟨(⟨"t", [], some boundAtom, "", "", true⟩, 3), by simp, rfl, by norm_num⟩, ?_, h2⟩
  rw [h4]
  simp [testDriver, Driver.ofData, Driver.init]

example : QCall.execs someStatics (fun _ => "r") testDriver
    [.add1 "u", .trace "c" "" 2 true, .add6 "u" [] boundAtom "" "" false, .add1 "u", .run] =
    .ok { testDriver with
      nbTotal := 3
      nbPos := 1
      errorFlag := true
      report := "stl_test a\n    t: r  --> PB\n\n"
      testLog := "t: r\n"
      stlTests := [("u", ⟨"u", [], some boundAtom, "", "", false⟩)]
      queue := [⟨"b", "", 1, false, []⟩, ⟨"c", "", 2, true,
        [⟨"u", [], some boundAtom, "", "", false⟩, ⟨"u", [], some boundAtom, "", "", false⟩]⟩] } := by
  decide +kernel

example : ({ testDriver with queue := [] }.addStlTest6 "u" [] boundAtom "" "" false) =
    { testDriver with
      queue := []
      nbTotal := 1 } :=
  C51_closed (g := someStatics) (fmt := fun _ => "") (c := .add6 "u" [] boundAtom "" "" false)
    rfl rfl rfl

/-! ## C58 run_tests agrees with get_online_rob -/

/-- C58: after `get_online_rob` returned robustness `r` for a formula of the driver, a test on that
formula, added and run at once, is counted as positive exactly when `r` is positive. -/
def C58_full : Prop := ∀ (g g' : Globals) (fmt : ℚ → String) (d d' : Driver) (id : String)
  (T : Tr) (r lo up : ℚ),
  d.getOnlineRob g id 0 = (g', d', .ok [r, lo, up]) → d'.formulas.lookup id = some T →
    d.queue = [] → ∃ d'' e,
    (((d'.addTraceTest "t" "" 0 false).addStlTest6 "s" [] T "" "" true).runTests g' fmt) =
      .ok (d'', e) ∧ (e = true ↔ 0 < r)

/-- C58 fails: the clone keeps the read position of the evaluated formula but not its signal, so
the test sees an empty trace and reports 0. -/
theorem C58_false : ¬ C58_full := by
  intro h
  let d : Driver := { Driver.ofData [[0, 3], [1, 4]] with
    smap := [("x", 1)]
    formulas := [("phi", freshAtom)] }
  have h1 : d.getOnlineRob someStatics "phi" 0 =
      ((d.getOnlineRob someStatics "phi" 0).1, (d.getOnlineRob someStatics "phi" 0).2.1,
        .ok [3, 3, 3]) := Prod.ext rfl (Prod.ext rfl (by decide +kernel))
  obtain ⟨T, hT⟩ : ∃ T, (d.getOnlineRob someStatics "phi" 0).2.1.formulas.lookup "phi" = some T := by
    rw [← Option.isSome_iff_exists]
    decide +kernel
  obtain ⟨d'', e, k1, k2⟩ := h _ _ (fun _ => "") d _ "phi" T 3 3 3 h1 hT rfl
  have k3 : ((((d.getOnlineRob someStatics "phi" 0).2.1.addTraceTest "t" "" 0 false).addStlTest6
      "s" [] (((d.getOnlineRob someStatics "phi" 0).2.1.formulas.lookup "phi").getD freshAtom)
      "" "" true).runTests (d.getOnlineRob someStatics "phi" 0).1 (fun _ => "")).map Prod.snd =
      .ok false := by decide +kernel
  rw [hT, Option.getD_some, k1] at k3
  injection k3 with k3
  simp only at k3
  rw [k3] at k2
  exact absurd (k2.2 (by norm_num)) (by decide)

end Props
end STLRom
