import Verif.Props.Queue
import Verif.Model.Poll
import Verif.Spec.Poll
import Mathlib.Data.List.Forall2

/-!
# Property C82: looking at the test queue
-/

namespace STLRom
namespace Props
open Driver Spec

/-- The calls on the queue, with `pop_next_trace_test` and `run_next_trace_test`. -/
inductive PCall where
  | q (c : QCall)
  | pop
  | runNext

/-- One call on a driver. -/
def PCall.exec (g : Globals) (fmt : ℚ → String) (d : Driver) : PCall → M Driver
  | q c => c.exec g fmt d
  | pop => .ok d.popNextTraceTest
  | runNext => d.runNextTraceTest g fmt

/-- A sequence of calls. -/
def PCall.execs (g : Globals) (fmt : ℚ → String) (d : Driver) (cs : List PCall) : M Driver :=
  cs.foldlM (PCall.exec g fmt) d

/-- What a call does to a first-in-first-out queue. -/
def PCall.act : PCall → QAct
  | q (.trace i e s v) => .opens i e s v
  | q (.add1 i) => .again i
  | q (.add2 i _) => .again i
  | q (.add6 i _ _ _ _ _) => .defines i
  | q .run | pop | runNext => .closes

/-- An entry of the queue as the caller sees it. -/
def seen (t : TraceTest) : Open := ⟨t.id, t.env, t.simTime, t.visu, t.tests.map StlTest.testId⟩

/-- The driver holds the queue `f`. -/
structure Holds (d : Driver) (f : Fifo) : Prop where
  queue : d.queue.map seen = f.opened
  known : ∀ i, i ∈ f.known ↔ ∃ t, d.stlTests.lookup i = some t
  names : ∀ i t, d.stlTests.lookup i = some t → t.testId = i ∧ t.formula ≠ none
  forms : ∀ q ∈ d.queue, ∀ t ∈ q.tests, t.formula ≠ none

theorem pushTest_seen (t : StlTest) : ∀ q : List TraceTest,
    (pushTest q t).map seen = Fifo.join t.testId (q.map seen)
  | [] => rfl
  | [b] => by simp [pushTest, Fifo.join, seen]
  | b :: c :: q => by
    have h := pushTest_seen t (c :: q)
    have e : pushTest (b :: c :: q) t = b :: pushTest (c :: q) t := by
      simp only [pushTest, List.getLast?_cons_cons]
      cases hl : (c :: q).getLast? with
      | none => rfl
      | some x => simp
    rw [e, List.map_cons, h]
    rfl

theorem pushTest_forms {t : StlTest} (ht : t.formula ≠ none) : ∀ {q : List TraceTest},
    (∀ b ∈ q, ∀ t ∈ b.tests, t.formula ≠ none) → ∀ b ∈ pushTest q t, ∀ t ∈ b.tests, t.formula ≠ none := by
  intro q h b hb
  rw [pushTest] at hb
  cases hl : q.getLast? with
  | none => rw [hl] at hb; exact h b hb
  | some x =>
    rw [hl] at hb
    rcases List.mem_append.1 hb with hb | hb
    · exact h b (List.dropLast_subset _ hb)
    · obtain rfl := List.mem_singleton.1 hb
      intro u hu
      rcases List.mem_append.1 hu with hu | hu
      · exact h x (List.mem_of_getLast? hl) u hu
      · obtain rfl := List.mem_singleton.1 hu
        exact ht

theorem Holds.again {d : Driver} {f : Fifo} (h : Holds d f) (i : String) (u : StlTest → StlTest)
    (hu : ∀ t, (u t).testId = t.testId) (hf : ∀ t, t.formula ≠ none → (u t).formula ≠ none) (d' : Driver)
    (hd : d' = match d.stlTests.lookup i with
      | none => { d with nbTotal := d.nbTotal + 1 }
      | some t => { d with nbTotal := d.nbTotal + 1, queue := pushTest d.queue (u t) }) :
    Holds d' (f.act (.again i)) := by
  cases hl : d.stlTests.lookup i with
  | none =>
    have hk : i ∉ f.known := fun hk => by
      obtain ⟨t, ht⟩ := (h.known i).1 hk
      rw [hl] at ht
      cases ht
    rw [hl] at hd
    subst hd
    rw [Fifo.act, if_neg hk]
    exact ⟨h.queue, h.known, h.names, h.forms⟩
  | some t =>
    rw [hl] at hd
    subst hd
    rw [Fifo.act, if_pos ((h.known i).2 ⟨t, hl⟩)]
    refine ⟨?_, h.known, h.names, pushTest_forms (hf t (h.names i t hl).2) h.forms⟩
    show (pushTest d.queue (u t)).map seen = Fifo.join i f.opened
    rw [pushTest_seen, hu, (h.names i t hl).1, h.queue]

theorem Holds.closed {d d' : Driver} {f : Fifo} (h : Holds d f) (hq : d'.queue = d.queue.tail)
    (hs : d'.stlTests = d.stlTests) : Holds d' (f.act .closes) := by
  refine ⟨?_, ?_, ?_, ?_⟩
  · rw [hq, List.map_tail, h.queue]
    rfl
  · rw [hs]; exact h.known
  · rw [hs]; exact h.names
  · rw [hq]; exact fun q k => h.forms q (List.mem_of_mem_tail k)

theorem Holds.step {g : Globals} {fmt : ℚ → String} {d d' : Driver} {f : Fifo} {c : PCall} (h : Holds d f)
    (hc : c.exec g fmt d = .ok d') : Holds d' (f.act c.act) := by
  have run : ∀ {d'}, (d.runTests g fmt).map Prod.fst = .ok d' → Holds d' (f.act .closes) := by
    intro d' hc
    cases hr : d.runTests g fmt with
    | error f => rw [hr] at hc; cases hc
    | ok p =>
      obtain ⟨d1, e⟩ := p
      rw [hr] at hc
      injection hc with hc
      subst hc
      obtain ⟨q, qs, rs, h1, h2, -, -, -, -, -, -, h3, -⟩ := C51_run hr
      exact h.closed (by rw [h2, h1]; rfl) h3
  cases c with
  | pop =>
    injection hc with hc
    subst hc
    refine h.closed ?_ ?_
    · rw [popNextTraceTest]
      cases hq : d.queue <;> simp [hq]
    · rw [popNextTraceTest]
      cases hq : d.queue <;> simp
  | runNext => exact run hc
  | q c =>
    cases c with
    | run => exact run hc
    | trace i e s v =>
      injection hc with hc
      subst hc
      exact ⟨by simp [addTraceTest, PCall.act, Fifo.act, h.queue, seen], h.known, h.names,
        fun q k => (List.mem_append.1 k).elim (h.forms q) fun k => by
          obtain rfl := List.mem_singleton.1 k
          simp⟩
    | add1 i =>
      injection hc with hc
      exact h.again i (fun t => { t with formula := t.formula.map Tr.clone, params := [] }) (fun _ => rfl) (fun t k => by simpa using k) d'
        (by rw [← hc, addStlTest1]; cases hl : d.stlTests.lookup i <;> simp)
    | add2 i l =>
      injection hc with hc
      exact h.again i (fun t => { t with formula := t.formula.map Tr.clone, params := l }) (fun _ => rfl) (fun t k => by simpa using k) d'
        (by rw [← hc, addStlTest2]; cases hl : d.stlTests.lookup i <;> simp)
    | add6 i l T p n b =>
      injection hc with hc
      subst hc
      have e : (f.opened = []) ↔ d.queue = [] := by rw [← h.queue]; simp
      by_cases hq : d.queue = []
      · rw [addStlTest6]
        simp only [hq, if_true, PCall.act, Fifo.act]
        rw [if_pos (e.2 hq)]
        exact ⟨by simpa [hq] using h.queue, h.known, h.names, by simp⟩
      · rw [addStlTest6]
        simp only [hq, if_false, PCall.act, Fifo.act]
        rw [if_neg fun k => hq (e.1 k)]
        refine ⟨?_, fun j => ?_, fun j t => ?_, pushTest_forms (by simp) h.forms⟩
        · show (pushTest d.queue _).map seen = _
          rw [pushTest_seen, h.queue]
        · show j ∈ i :: f.known ↔ ∃ t, (d.stlTests.set i _).lookup j = some t
          rw [Assoc.lookup_set, List.mem_cons]
          by_cases hj : j = i
          · subst hj; simp
          · simp [hj, h.known]
        · show (d.stlTests.set i _).lookup j = some t → _
          rw [Assoc.lookup_set]
          by_cases hj : j = i
          · subst hj
            simp
            rintro rfl
            simp
          · simpa [hj] using h.names j t

theorem Holds.steps {g : Globals} {fmt : ℚ → String} : ∀ {cs : List PCall} {d d' : Driver} {f : Fifo},
    Holds d f → PCall.execs g fmt d cs = .ok d' → Holds d' ((cs.map PCall.act).foldl Fifo.act f)
  | [], d, d', f, h, hc => by
    cases hc
    exact h
  | c :: cs, d, d', f, h, hc => by
    rw [PCall.execs, List.foldlM_cons] at hc
    cases h1 : PCall.exec g fmt d c with
    | error f => rw [h1] at hc; cases hc
    | ok d1 =>
      rw [h1] at hc
      exact (h.step h1).steps hc

/-- The full claim: after every sequence of calls that returns, what the accessors say is what a first-in-first-out
queue of trace tests holds, and they can all be asked at any time. -/
def C82_full : Prop := ∀ (g : Globals) (fmt : ℚ → String) (cs : List PCall) (d : Driver),
  PCall.execs g fmt .init cs = .ok d →
    let o := (Fifo.after (cs.map PCall.act)).opened
    (d.traceTestQueueEmpty = true ↔ o = []) ∧
    d.nextTraceTest.map seen = o.head? ∧
    d.nextTraceTestEnv = (o.head?.map Open.env).getD "" ∧
    (∃ t, d.nextStlTest = .ok t ∧ t.map StlTest.testId = o.head?.bind fun x => x.tests.head?) ∧
    ∃ T, d.nextFormula = .ok T ∧ (T = none ↔ ∀ x, o.head? = some x → x.tests = [])

theorem holds_init : Holds .init ⟨[], []⟩ :=
  ⟨rfl, fun i => by simp [Driver.init], fun i t h => by simp [Driver.init] at h,
    fun q h => by simp [Driver.init] at h⟩

/-- C82 while a trace test is open; the first three accessors at any time.  Missing: asking for the next test or
formula when no trace test is open (false, `C82_false`). -/
theorem C82_partial (g : Globals) (fmt : ℚ → String) (cs : List PCall) (d : Driver)
    (h : PCall.execs g fmt .init cs = .ok d) :
    let o := (Fifo.after (cs.map PCall.act)).opened
    (d.traceTestQueueEmpty = true ↔ o = []) ∧
    d.nextTraceTest.map seen = o.head? ∧
    d.nextTraceTestEnv = (o.head?.map Open.env).getD "" ∧
    (d.traceTestQueueEmpty = false →
      (∃ t, d.nextStlTest = .ok t ∧ t.map StlTest.testId = o.head?.bind fun x => x.tests.head?) ∧
      ∃ T, d.nextFormula = .ok T ∧ (T = none ↔ ∀ x, o.head? = some x → x.tests = [])) := by
  have k := holds_init.steps h
  have hq : d.queue.map seen = (Fifo.after (cs.map PCall.act)).opened := k.queue
  intro o
  show (d.traceTestQueueEmpty = true ↔ o = []) ∧ _
  have hf := k.forms
  rw [← show d.queue.map seen = o from hq]
  clear hq k
  simp only [traceTestQueueEmpty, nextTraceTest, nextTraceTestEnv, nextStlTest, nextFormula]
  cases hd : d.queue with
  | nil => simp
  | cons q qs =>
    refine ⟨by simp, rfl, rfl, fun _ => ⟨⟨_, rfl, ?_⟩, ?_⟩⟩
    · cases ht : q.tests <;> simp [seen, ht]
    · cases ht : q.tests with
      | nil => exact ⟨none, by simp only [ht], by simp [seen, ht]⟩
      | cons t ts =>
        refine ⟨t.formula, by simp only [ht], ?_⟩
        have := hf q (by rw [hd]; simp) t (by rw [ht]; simp)
        simp [seen, ht, this]

/-- C82 is false: `get_next_stl_test` of a new driver takes the front of an empty deque. -/
theorem C82_false : ¬ C82_full := by
  intro h
  obtain ⟨-, -, -, ⟨t, h, -⟩, -⟩ := h .init (fun _ => "") [] .init rfl
  cases h

/-- C82, popping: `pop_next_trace_test` is defined also on an empty queue, which it leaves alone, while
`run_next_trace_test` is not. -/
theorem C82_pop (g : Globals) (fmt : ℚ → String) (d : Driver) (h : d.traceTestQueueEmpty = true) :
    d.popNextTraceTest = d ∧ d.runNextTraceTest g fmt = .error .ub := by
  have hq : d.queue = [] := by simpa [traceTestQueueEmpty] using h
  refine ⟨by rw [popNextTraceTest, hq], ?_⟩
  rw [runNextTraceTest, C51_empty_undefined g fmt hq]
  rfl

/-- The number of tests waiting in the queue. -/
def waiting (d : Driver) : ℕ := (d.queue.map fun q => q.tests.length).sum

theorem waiting_push (q : List TraceTest) (t : StlTest) :
    ((pushTest q t).map fun q => q.tests.length).sum ≤ (q.map fun q => q.tests.length).sum + 1 := by
  rw [pushTest]
  cases hl : q.getLast? with
  | none => simp
  | some x =>
    have e := List.dropLast_append_getLast? x hl
    conv_rhs => rw [← e]
    simp
    omega

theorem count_step {g : Globals} {fmt : ℚ → String} {d d' : Driver} {c : PCall}
    (h : d.nbPos + waiting d ≤ d.nbTotal) (hc : c.exec g fmt d = .ok d') : d'.nbPos + waiting d' ≤ d'.nbTotal := by
  have run : ∀ {d'}, (d.runTests g fmt).map Prod.fst = .ok d' → d'.nbPos + waiting d' ≤ d'.nbTotal := by
    intro d' hc
    cases hr : d.runTests g fmt with
    | error f => rw [hr] at hc; cases hc
    | ok p =>
      obtain ⟨d1, e⟩ := p
      rw [hr] at hc
      injection hc with hc
      subst hc
      obtain ⟨q, qs, rs, h1, h2, h3, h4, -, -, h5, -⟩ := C51_run hr
      have l := h3.length_eq
      have k := List.countP_le_length (p := fun r : ℚ => decide (0 < r)) (l := rs)
      rw [waiting, h1, List.map_cons, List.sum_cons] at h
      show d1.nbPos + waiting d1 ≤ d1.nbTotal
      rw [waiting, h2, h4, h5]
      omega
  cases c with
  | pop =>
    injection hc with hc
    subst hc
    rw [popNextTraceTest]
    cases hq : d.queue with
    | nil => exact h
    | cons q qs =>
      rw [waiting, hq, List.map_cons, List.sum_cons] at h
      show d.nbPos + (qs.map fun q => q.tests.length).sum ≤ d.nbTotal
      omega
  | runNext => exact run hc
  | q c =>
    cases c with
    | run => exact run hc
    | trace i e s v =>
      injection hc with hc
      subst hc
      simpa [addTraceTest, waiting] using h
    | add1 i =>
      injection hc with hc
      subst hc
      rw [addStlTest1]
      cases hl : d.stlTests.lookup i with
      | none => exact le_trans h (Nat.le_succ _)
      | some t => exact le_trans (Nat.add_le_add_left (waiting_push _ _) _) (Nat.succ_le_succ h)
    | add2 i l =>
      injection hc with hc
      subst hc
      rw [addStlTest2]
      cases hl : d.stlTests.lookup i with
      | none => exact le_trans h (Nat.le_succ _)
      | some t => exact le_trans (Nat.add_le_add_left (waiting_push _ _) _) (Nat.succ_le_succ h)
    | add6 i l T p n b =>
      injection hc with hc
      subst hc
      rw [addStlTest6]
      by_cases hq : d.queue = []
      · simp only [hq, if_true]
        refine le_trans ?_ (Nat.succ_le_succ h)
        simp [waiting]
        omega
      · simp only [hq, if_false]
        exact le_trans (Nat.add_le_add_left (waiting_push _ _) _) (Nat.succ_le_succ h)

theorem count_steps {g : Globals} {fmt : ℚ → String} : ∀ {cs : List PCall} {d d' : Driver},
    d.nbPos + waiting d ≤ d.nbTotal → PCall.execs g fmt d cs = .ok d' → d'.nbPos + waiting d' ≤ d'.nbTotal
  | [], d, d', h, hc => by
    cases hc
    exact h
  | c :: cs, d, d', h, hc => by
    rw [PCall.execs, List.foldlM_cons] at hc
    cases h1 : PCall.exec g fmt d c with
    | error f => rw [h1] at hc; cases hc
    | ok d1 =>
      rw [h1] at hc
      exact count_steps (count_step h h1) hc

/-- C82, the log file: it ends with a line `Number of positive STL tests: p/n` in which `p` is at most `n`, and the
tests that still wait are not more than the difference. -/
theorem C82_log (g : Globals) (fmt : ℚ → String) (cs : List PCall) (d : Driver)
    (h : PCall.execs g fmt .init cs = .ok d) :
    ∃ (log : String) (p n : ℕ), d.logFile = log ++ "\n" ++ "Number of positive STL tests: " ++ toString p ++ "/" ++ toString n ∧
      p + waiting d ≤ n :=
  ⟨_, _, _, rfl, count_steps (by decide) h⟩

/-! ### Instances -/

/-- Two trace tests; the first has two tests, one of them defined by name only, the second none. -/
def pollCalls : List PCall :=
  [.q (.trace "a" "city" 1 false), .q (.add6 "t" [] freshAtom "" "" true), .q (.add1 "u"), .q (.add1 "t"),
    .q (.trace "b" "road" 2 true)]

/-- The driver after these calls. -/
def polled : Driver :=
  (pollCalls.foldl (fun d c => match c with
    | .q (.trace i e s v) => d.addTraceTest i e s v
    | .q (.add1 i) => d.addStlTest1 i
    | .q (.add6 i l f p n b) => d.addStlTest6 i l f p n b
    | _ => d) .init)

example (g : Globals) (fmt : ℚ → String) :
    PCall.execs g fmt .init pollCalls = .ok polled ∧ polled.nextTraceTestEnv = "city" ∧
      ∃ t, polled.nextStlTest = .ok t ∧ t.map StlTest.testId = some "t" := by
  have h : PCall.execs g fmt .init pollCalls = .ok polled := rfl
  have k := C82_partial g fmt pollCalls polled h
  refine ⟨h, k.2.2.1.trans (by decide +kernel), ?_⟩
  obtain ⟨t, h1, h2⟩ := (k.2.2.2 (by decide +kernel)).1
  exact ⟨t, h1, h2.trans (by decide +kernel)⟩

/-- Popping both trace tests and once more. -/
example (g : Globals) (fmt : ℚ → String) (d : Driver)
    (h : PCall.execs g fmt .init (pollCalls ++ [.pop, .pop, .pop]) = .ok d) : d.traceTestQueueEmpty = true ∧ d.nbTotal = 3 := by
  refine ⟨(C82_partial g fmt _ d h).1.2 (by decide +kernel), ?_⟩
  have e : PCall.execs g fmt .init (pollCalls ++ [.pop, .pop, .pop]) =
    .ok polled.popNextTraceTest.popNextTraceTest.popNextTraceTest := rfl
  rw [e] at h
  injection h with h
  subst h
  rfl

example (g : Globals) (fmt : ℚ → String) : ∃ (log : String) (p n : ℕ),
    polled.logFile = log ++ "\n" ++ "Number of positive STL tests: " ++ toString p ++ "/" ++ toString n ∧ p + 2 ≤ n :=
  C82_log g fmt pollCalls polled rfl

example (g : Globals) (fmt : ℚ → String) : Driver.init.popNextTraceTest = .init ∧ Driver.init.runNextTraceTest g fmt = .error .ub :=
  C82_pop g fmt .init rfl

end Props
end STLRom
