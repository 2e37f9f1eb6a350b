import Verif.Proofs.Calls
import Verif.Proofs.Horizon
import Mathlib.Tactic.NormNum

/-!
# Monitors and drivers as objects: histories, settings, parameters, copies

Properties C18, C19, C23, C24, C31–C37, C54, C55 and C57.
-/

namespace STLRom
namespace Props
open Spec

/-! ## Concrete objects for the examples -/

/-- The formula `ev_[0, p] (x[t] > q)` with parameters `p` and `q`. -/
def evPQ : Tr :=
  .ev .init ⟨0, 0, "", "p"⟩
    (.atom .init .greater (.sig .init "x" [("x", 1)] none) (.const .init "q" 0 none))

/-- The formula `x[t] > 3`. -/
def gt3 : Tr := .atom .init .greater (.sig .init "x" [("x", 1)] none) (.const .init "" 3 none)

/-- A driver with the two formulas, one signal, two parameters and three rows. -/
def drv0 : Driver :=
  { Driver.init with
    params := [("p", 2), ("q", 1)]
    smap := [("x", 1)]
    formulas := [("f", evPQ), ("g", gt3)]
    data := [[0, 5], [1, 7], [4, -1]] }

/-- A monitor of `ev_[0, p] (x[t] > q)`. -/
def mon0 : Monitor := drv0.getMonitor .init "f"

/-- The monitor evaluates without a fault and its three results are numbers. -/
example : numbers (mon0.step .init (.eval1 0)).2.2 = .ok [6, 6, 6] := by decide +kernel

/-! ## C18: `add_sample` -/

/-- C18 for `STLMonitor::add_sample`: accepted exactly when well-shaped and later; otherwise an
exception, and the monitor is unchanged.  (By C19 the hypothesis on the stored rows holds in
every history.) -/
theorem C18_monitor (g : Globals) (m : Monitor) (hd : ∀ r ∈ m.data, r ≠ []) (row : List ℚ) :
    (Accepts m.smap.length m.data row →
      m.step g (.addSample row) = (g, { m with data := m.data ++ [row] }, .ok .done)) ∧
    (¬ Accepts m.smap.length m.data row →
      ∃ msg, m.step g (.addSample row) = (g, m, .error (.exn msg))) := by
  refine ⟨fun h => ?_, fun h => ?_⟩
  · simp only [Monitor.step, Monitor.addSample, pushRow_ok hd h]; rfl
  · obtain ⟨msg, h1⟩ := pushRow_exn hd h
    exact ⟨msg, by simp only [Monitor.step, Monitor.addSample, h1]; rfl⟩

/-- C18 for `STLDriver::add_sample`. -/
theorem C18_driver (g : Globals) (d : Driver) (hd : ∀ r ∈ d.data, r ≠ []) (row : List ℚ) :
    (Accepts d.smap.length d.data row →
      d.step g (.addSample row) = (g, { d with data := d.data ++ [row] }, .ok .done)) ∧
    (¬ Accepts d.smap.length d.data row →
      ∃ msg, d.step g (.addSample row) = (g, d, .error (.exn msg))) := by
  refine ⟨fun h => ?_, fun h => ?_⟩
  · simp only [Driver.step, Driver.addSample, pushRow_ok hd h]; rfl
  · obtain ⟨msg, h1⟩ := pushRow_exn hd h
    exact ⟨msg, by simp only [Driver.step, Driver.addSample, h1]; rfl⟩

example : (∀ r ∈ mon0.data, r ≠ []) ∧ Accepts mon0.smap.length mon0.data [5, 2] ∧
    ¬ Accepts mon0.smap.length mon0.data [4, 2] ∧ ¬ Accepts mon0.smap.length mon0.data [5] := by
  refine ⟨by decide +kernel, ⟨by decide +kernel, ?_⟩, ?_, ?_⟩
  · intro last h t u ht hu
    have e : last = [4, -1] := (Option.some.inj h).symm
    subst e
    obtain rfl : (4 : ℚ) = t := Option.some.inj ht
    obtain rfl : (5 : ℚ) = u := Option.some.inj hu
    norm_num
  · intro h
    have := h.2 [4, -1] rfl 4 4 rfl rfl
    exact lt_irrefl _ this
  · intro h
    have : (1 : ℕ) = 1 + 1 := h.1
    omega

/-! ## C19: stored traces stay ordered and rectangular -/

/-- C19: in any program over a driver and monitors, starting with well-shaped data (in
particular with none), the rows of every object keep the width given by its signal map and
strictly increasing times. -/
theorem C19_shape (w : World) (hd : WellShaped w.drv.smap.length w.drv.data)
    (hm : ∀ m ∈ w.mons, WellShaped m.smap.length m.data) (cs : List Cmd) :
    WellShaped (w.run cs).1.drv.smap.length (w.run cs).1.drv.data ∧
    ∀ m ∈ (w.run cs).1.mons, WellShaped m.smap.length m.data :=
  shapeW_run w cs ⟨hd, hm⟩

/-- C19 for a history of one monitor: the width never changes either. -/
theorem C19_monitor (g : Globals) (m : Monitor) (h : WellShaped m.smap.length m.data)
    (ops : List MonOp) :
    WellShaped m.smap.length (m.run g ops).2.1.data := by
  have key : Shape (m.run g ops).2.1 ∧ (m.run g ops).2.1.smap = m.smap := by
    induction ops generalizing g m with
    | nil => exact ⟨h, rfl⟩
    | cons op ops ih =>
      obtain ⟨h1, h2⟩ := shape_step g m op h
      have := ih (m.step g op).1 (m.step g op).2.1 h1
      exact ⟨this.1, this.2.trans h2⟩
  have h1 := key.1
  unfold Shape at h1
  rwa [key.2] at h1

/-- The empty program state is well-shaped, and so is the one with `drv0`. -/
example : WellShaped (0 : ℕ) [] ∧ WellShaped drv0.smap.length drv0.data ∧
    ((mon0.run .init [.addSample [5, 1], .eval1 0, .addSample [5, 2], .addSample [6]]).2.1.data =
      [[0, 5], [1, 7], [4, -1], [5, 1]]) := by
  refine ⟨⟨by simp, by simp⟩, ⟨by decide +kernel, ?_⟩, by decide +kernel⟩
  simp only [drv0, Driver.init, List.pairwise_cons, List.mem_cons, List.not_mem_nil, or_false,
    forall_eq_or_imp, forall_eq, List.head?_cons, Option.some.injEq]
  refine ⟨⟨?_, ?_⟩, ?_, by simp, by simp⟩ <;> rintro t u rfl rfl <;> norm_num

/-! ## C23: evaluation is a function of the inputs -/

/-- C23: the reply to an evaluation (robustness, both bounds, signal, or the fault) after any
history is the reply after the same history with all evaluations left out. -/
theorem C23_history (g : Globals) (m : Monitor) (ops : List MonOp) (op : MonOp) :
    ((m.run g ops).2.1.step (m.run g ops).1 op).2.2 =
      ((m.run g (ops.filter fun o => !isEval o)).2.1.step
        (m.run g (ops.filter fun o => !isEval o)).1 op).2.2 := by
  refine (step_sim ?_ (run_filter g m m (Sim.refl m) ops) op).1
  rw [run_B, run_B]

/-- C23: two monitors with the same formula as written, data, parameter values and settings
give the same reply, whatever happened to either before. -/
theorem C23_function (g g' : Globals) (hg : g.B = g'.B) (m m' : Monitor) (h : SameInputs m m')
    (s e : ℚ) : (m.step g (.eval2 s e)).2.2 = (m'.step g' (.eval2 s e)).2.2 :=
  SameInputs.eval hg h s e

/-- C23: repeating an evaluation gives the same reply. -/
theorem C23_repeat (g : Globals) (m : Monitor) (s e : ℚ) :
    ((m.step g (.eval2 s e)).2.1.step (m.step g (.eval2 s e)).1 (.eval2 s e)).2.2 =
      (m.step g (.eval2 s e)).2.2 :=
  (step_sim (step_B g m _) (step_eval_sim g m (.eval2 s e) rfl) (.eval2 s e)).1

example :
    let h : List MonOp := [.eval2 1 3, .setParam "p" 4, .eval1 2, .addSample [9, 9], .eval0]
    ((mon0.run .init h).2.1.step .init (.eval1 0)).2.2 =
      ((mon0.run .init [.setParam "p" 4, .addSample [9, 9]]).2.1.step .init (.eval1 0)).2.2 ∧
    numbers ((mon0.run .init h).2.1.step .init (.eval1 0)).2.2 = .ok [6, 6, 6] ∧
    (mon0.run .init h).2.1 ≠ (mon0.run .init [.setParam "p" 4, .addSample [9, 9]]).2.1 := by
  decide +kernel

/-! ## C24: monitors do not interfere -/

/-- C24: in any interleaving of calls on a driver and any number of monitors (and of the static
setters of `Signal`), the replies to monitor `i` are those it gives alone, with any values of the
static settings, provided the program does not assign to it or move from it. -/
theorem C24_interleaving (w : World) (i : ℕ) (m : Monitor) (hm : w.mons[i]? = some m)
    (cs : List Cmd) (hc : Keeps i cs) (g : Globals) (hg : g.B = w.g.B) :
    monReplies i (w.run cs).2 = (m.run g (monOps i cs)).2.2 := by
  rw [(world_mon w i m hm cs hc).1]
  exact (run_sim hg.symm (Sim.refl m) _).1

/-- A program on two monitors with different settings. -/
def prog2 : List Cmd :=
  [.mon 1 (.setInterpol "PREVIOUS"), .mon 0 (.eval1 0), .mon 1 (.eval1 0),
   .globalInterpol "PREVIOUS", .mon 0 (.addSample [9, 9]), .mon 0 (.eval2 0 1),
   .drv (.onlineRob "g" 0), .mon 1 (.eval1 1)]

example : Keeps 0 prog2 ∧
    (monReplies 0 ((⟨.init, drv0, [mon0, mon0.copy]⟩ : World).run prog2).2).length = 3 := by
  refine ⟨?_, by decide +kernel⟩
  intro c hc
  simp only [prog2, List.mem_cons, List.not_mem_nil, or_false] at hc
  rcases hc with rfl | rfl | rfl | rfl | rfl | rfl | rfl | rfl <;> exact ⟨by simp, by simp⟩

/-! ## C31 and C32: parameters -/

/-- C31: writing an existing parameter makes it read back and changes no other one. -/
theorem C31_set_get (g : Globals) (m : Monitor) (p : String) (v v0 : ℚ)
    (h : m.params.lookup p = some v0) :
    (m.step g (.setParam p v)).2.2 = .ok .done ∧
    ((m.step g (.setParam p v)).2.1.step g (.getParam p)).2.2 = .ok (.number v) ∧
    ∀ q, q ≠ p → ((m.step g (.setParam p v)).2.1.step g (.getParam q)).2.2 =
      (m.step g (.getParam q)).2.2 := by
  obtain ⟨m', h1, h2, -⟩ := setParam_ok h v
  simp only [Monitor.step, h1, tryCall, Monitor.getParam, h2]
  refine ⟨trivial, by simp; rfl, ?_⟩
  intro q hq
  rw [if_neg hq]

/-- C31: on an unknown name both calls throw and nothing changes. -/
theorem C31_unknown (g : Globals) (m : Monitor) (p : String) (v : ℚ)
    (h : m.params.lookup p = none) :
    (∃ msg, m.step g (.setParam p v) = (g, m, .error (.exn msg))) ∧
    ∃ msg, m.step g (.getParam p) = (g, m, .error (.exn msg)) := by
  simp only [Monitor.step, Monitor.setParam, Monitor.getParam, h]
  exact ⟨⟨_, rfl⟩, ⟨_, rfl⟩⟩

/-- C31 along a history: a declared parameter holds the last value written to it, an undeclared
one is never created. -/
theorem C31_history (g : Globals) (m : Monitor) (ops : List MonOp) (p : String) :
    (∀ v, m.params.lookup p = some v →
      (m.run g ops).2.1.getParam p = .ok (lastWrite p v ops)) ∧
    (m.params.lookup p = none → ∃ msg, (m.run g ops).2.1.getParam p = .error (.exn msg)) := by
  unfold Monitor.getParam
  rw [run_params]
  refine ⟨fun v h => by rw [h]; rfl, fun h => by rw [h]; exact ⟨_, rfl⟩⟩

example : mon0.params.lookup "p" = some 2 ∧ mon0.params.lookup "r" = none ∧
    (mon0.run .init [.setParam "p" 4, .eval1 0, .setParam "r" 1, .setParam "q" 7]).2.1.getParam "p"
      = .ok 4 := by decide +kernel

/-- C32: writing an existing parameter of a driver makes it read back and changes no other
one. -/
theorem C32_set_get (g : Globals) (d : Driver) (p : String) (v v0 : ℚ)
    (h : d.params.lookup p = some v0) :
    (d.step g (.setParam p v)).2.2 = .ok .done ∧
    (d.step g (.setParam p v)).2.1.getParam p = v ∧
    ∀ q, q ≠ p → (d.step g (.setParam p v)).2.1.getParam q = d.getParam q := by
  simp only [Driver.step, Driver.setParam, Driver.getParam, h, Option.isSome_some, if_true,
    Assoc.lookup_set]
  refine ⟨trivial, by simp, ?_⟩
  intro q hq
  rw [if_neg hq]

/-- C32: an unknown name is ignored; reading it gives 0. -/
theorem C32_unknown (g : Globals) (d : Driver) (p : String) (v : ℚ)
    (h : d.params.lookup p = none) :
    (d.step g (.setParam p v)).2.2 = .ok .done ∧
    (d.step g (.setParam p v)).2.1.params = d.params ∧
    (d.step g (.setParam p v)).2.1.getParam p = 0 := by
  simp [Driver.step, Driver.setParam, Driver.getParam, h]

/-- C32 along a history. -/
theorem C32_history (g : Globals) (d : Driver) (ops : List DrvOp) (p : String) :
    (∀ v, d.params.lookup p = some v →
      (d.run g ops).2.1.getParam p = lastWriteD p v ops) ∧
    (d.params.lookup p = none → (d.run g ops).2.1.getParam p = 0) := by
  unfold Driver.getParam
  rw [runD_params]
  refine ⟨fun v h => by rw [h]; rfl, fun h => by rw [h]; rfl⟩

example : drv0.params.lookup "q" = some 1 ∧ drv0.params.lookup "r" = none ∧
    (drv0.run .init [.setParam "q" 4, .onlineRob "f" 0, .setParam "r" 1]).2.1.getParam "q" = 4 := by
  decide +kernel

/-! ## C33: a parameter behaves like the constant it holds -/

/-- C33: writing the current values of the parameters into the formula and removing all
parameters from the monitor changes nothing in any evaluation (robustness, bounds, signal or
fault).  Names are non-empty, as the grammar guarantees. -/
theorem C33_inline (g : Globals) (m : Monitor) (T : Tr) (hT : m.formula = some T)
    (h0 : m.params.lookup "" = none) (s e : ℚ) :
    (Monitor.step g { m with formula := some (substParams m.params T), params := [] }
      (.eval2 s e)).2.2 = (m.step g (.eval2 s e)).2.2 :=
  inlined_eval g m T hT h0 (fun _ _ => rfl) s e

/-- C33: the same when the parameters stay declared. -/
theorem C33_inline_keep (g : Globals) (m : Monitor) (T : Tr) (hT : m.formula = some T)
    (h0 : m.params.lookup "" = none) (s e : ℚ) :
    (Monitor.step g { m with formula := some (substParams m.params T) } (.eval2 s e)).2.2 =
      (m.step g (.eval2 s e)).2.2 :=
  inlined_eval g m T hT h0 (fun _ h => h) s e

example : mon0.params.lookup "" = none ∧ mon0.formula = some evPQ.clone ∧
    substParams mon0.params evPQ.clone =
      .ev .init ⟨0, 2, "", ""⟩
        (.atom .init .greater (.sig .init "x" [("x", 1)] none) (.const .init "" 1 none)) ∧
    numbers (mon0.step .init (.eval2 0 1)).2.2 = .ok [6, 6, 6] ∧
    numbers ((mon0.run .init [.setParam "q" (-1)]).2.1.step .init (.eval2 0 1)).2.2 =
      .ok [8, 8, 8] := by
  decide +kernel

/-! ## C34: settings -/

/-- C34 for `STLMonitor::set_semantics`. -/
theorem C34_monitor_semantics (g : Globals) (m : Monitor) (s : String) :
    (s ∈ semanticsNames → (m.step g (.setSemantics s)).2.2 = .ok .done ∧
      ((m.step g (.setSemantics s)).2.1.step g .getSemantics).2.2 = .ok (.text s) ∧
      ∃ v, m.step g (.setSemantics s) = (g, { m with sem := v }, .ok .done)) ∧
    (s ∉ semanticsNames → ∃ msg, m.step g (.setSemantics s) = (g, m, .error (.exn msg))) := by
  refine ⟨fun h => ?_, fun h => ?_⟩
  · obtain ⟨v, h1, h2⟩ := (parseSemantics_iff s).1 h
    simp only [Monitor.step, Monitor.setSemantics, h1]
    exact ⟨rfl, by simp only [Monitor.getSemantics]; exact congrArg (Except.map Reply.text) h2,
      v, rfl⟩
  · obtain ⟨msg, h1⟩ := (parseSemantics_iff s).2 h
    exact ⟨msg, by simp only [Monitor.step, Monitor.setSemantics, h1]; rfl⟩

/-- C34 for `STLMonitor::set_interpol`. -/
theorem C34_monitor_interpol (g : Globals) (m : Monitor) (s : String) :
    (s ∈ interpolNames → (m.step g (.setInterpol s)).2.2 = .ok .done ∧
      ((m.step g (.setInterpol s)).2.1.step g .getInterpol).2.2 = .ok (.text s) ∧
      ∃ v, m.step g (.setInterpol s) = (g, { m with ip := v }, .ok .done)) ∧
    (s ∉ interpolNames → ∃ msg, m.step g (.setInterpol s) = (g, m, .error (.exn msg))) := by
  refine ⟨fun h => ?_, fun h => ?_⟩
  · obtain ⟨v, h1, h2⟩ := (parseInterpol_iff s).1 h
    simp only [Monitor.step, Monitor.setInterpol, h1]
    exact ⟨rfl, by simp only [Monitor.getInterpol]; exact congrArg (Except.map Reply.text) h2,
      v, rfl⟩
  · obtain ⟨msg, h1⟩ := (parseInterpol_iff s).2 h
    exact ⟨msg, by simp only [Monitor.step, Monitor.setInterpol, h1]; rfl⟩

/-- C34 along a history of a monitor: the getters return the names last accepted. -/
theorem C34_monitor_history (g : Globals) (m : Monitor) (ops : List MonOp) (a b : String)
    (ha : m.getSemantics = .ok a) (hb : m.getInterpol = .ok b) :
    (m.run g ops).2.1.getSemantics = .ok (lastSemantics a ops) ∧
    (m.run g ops).2.1.getInterpol = .ok (lastInterpol b ops) :=
  run_settings g m ops ha hb

/-- C34 for `STLDriver`. -/
theorem C34_driver (g : Globals) (d : Driver) (s : String) :
    (s ∈ semanticsNames → (d.step g (.setSemantics s)).2.2 = .ok .done ∧
      (d.step g (.setSemantics s)).2.1.getSemantics = .ok s) ∧
    (s ∉ semanticsNames → ∃ msg, d.step g (.setSemantics s) = (g, d, .error (.exn msg))) ∧
    (s ∈ interpolNames → (d.step g (.setInterpol s)).2.2 = .ok .done ∧
      (d.step g (.setInterpol s)).2.1.getInterpol = .ok s) ∧
    (s ∉ interpolNames → ∃ msg, d.step g (.setInterpol s) = (g, d, .error (.exn msg))) := by
  refine ⟨fun h => ?_, fun h => ?_, fun h => ?_, fun h => ?_⟩
  · obtain ⟨v, h1, h2⟩ := (parseSemantics_iff s).1 h
    simp only [Driver.step, Driver.setSemantics, h1]
    exact ⟨rfl, h2⟩
  · obtain ⟨msg, h1⟩ := (parseSemantics_iff s).2 h
    exact ⟨msg, by simp only [Driver.step, Driver.setSemantics, h1]; rfl⟩
  · obtain ⟨v, h1, h2⟩ := (parseInterpol_iff s).1 h
    simp only [Driver.step, Driver.setInterpol, h1]
    exact ⟨rfl, h2⟩
  · obtain ⟨msg, h1⟩ := (parseInterpol_iff s).2 h
    exact ⟨msg, by simp only [Driver.step, Driver.setInterpol, h1]; rfl⟩

/-- C34 along a history of a driver. -/
theorem C34_driver_history (g : Globals) (d : Driver) (ops : List DrvOp) (a b : String)
    (ha : d.getSemantics = .ok a) (hb : d.getInterpol = .ok b) :
    (d.run g ops).2.1.getSemantics = .ok (lastSemanticsD a ops) ∧
    (d.run g ops).2.1.getInterpol = .ok (lastInterpolD b ops) :=
  runD_settings g d ops ha hb

/-- C34 for the static setters of `Signal`. -/
theorem C34_static (g : Globals) (s : String) :
    (s ∈ semanticsNames → ∃ g', g.setSemantics s = .ok g' ∧ g'.getSemantics = .ok s ∧
      g'.B = g.B ∧ g'.ip = g.ip) ∧
    (s ∉ semanticsNames → ∃ msg, g.setSemantics s = .error (.exn msg)) ∧
    (s ∈ interpolNames → ∃ g', g.setInterpol s = .ok g' ∧ g'.getInterpol = .ok s ∧
      g'.B = g.B ∧ g'.sem = g.sem) ∧
    (s ∉ interpolNames → ∃ msg, g.setInterpol s = .error (.exn msg)) := by
  refine ⟨fun h => ?_, fun h => ?_, fun h => ?_, fun h => ?_⟩
  · obtain ⟨v, h1, h2⟩ := (parseSemantics_iff s).1 h
    exact ⟨{ g with sem := v }, by simp only [Globals.setSemantics, h1]; rfl, h2, rfl, rfl⟩
  · obtain ⟨msg, h1⟩ := (parseSemantics_iff s).2 h
    exact ⟨msg, by simp only [Globals.setSemantics, h1]; rfl⟩
  · obtain ⟨v, h1, h2⟩ := (parseInterpol_iff s).1 h
    exact ⟨{ g with ip := v }, by simp only [Globals.setInterpol, h1]; rfl, h2, rfl, rfl⟩
  · obtain ⟨msg, h1⟩ := (parseInterpol_iff s).2 h
    exact ⟨msg, by simp only [Globals.setInterpol, h1]; rfl⟩

example : "LEFT_TIME" ∈ semanticsNames ∧ "BOOLEAN" ∉ semanticsNames ∧ "linear" ∉ interpolNames ∧
    mon0.getSemantics = .ok "SPACE" ∧ mon0.getInterpol = .ok "LINEAR" ∧
    drv0.getSemantics = .ok "SPACE" ∧ drv0.getInterpol = .ok "LINEAR" ∧
    lastSemantics "SPACE" [.setSemantics "LEFT_TIME", .setSemantics "x", .eval0] = "LEFT_TIME" := by
  decide +kernel

/-! ## C35: a monitor is independent of its driver -/

/-- C35: `get_monitor` of a defined formula takes over formula, data, parameters, signals and
settings. -/
theorem C35_snapshot (g : Globals) (d : Driver) (id : String) (T : Tr)
    (h : d.formulas.lookup id = some T) :
    (d.getMonitor g id).data = d.data ∧ (d.getMonitor g id).params = d.params ∧
    (d.getMonitor g id).smap = d.smap ∧ (d.getMonitor g id).sem = d.sem ∧
    (d.getMonitor g id).ip = d.ip ∧
    ∃ T', (d.getMonitor g id).formula = some T' ∧ forget T' = forget T := by
  simp only [Driver.getMonitor, h]
  exact ⟨trivial, trivial, trivial, trivial, trivial, _, rfl, forget_clone T⟩

/-- C35: after `get_monitor`, whatever else the program does to the driver or to other monitors,
the new monitor's replies are those it would give alone. -/
theorem C35_monitor_independent (w : World) (id : String) (cs : List Cmd)
    (hc : Keeps w.mons.length cs) :
    monReplies w.mons.length ((w.step (.getMonitor id)).1.run cs).2 =
      ((w.drv.getMonitor w.g id).run w.g (monOps w.mons.length cs)).2.2 := by
  have h : (w.step (.getMonitor id)).1.mons[w.mons.length]? = some (w.drv.getMonitor w.g id) := by
    simp [World.step]
  exact (world_mon (w.step (.getMonitor id)).1 _ _ h cs hc).1

/-- C35: and the driver's replies are those it would give without any monitor. -/
theorem C35_driver_independent (w : World) (cs : List Cmd) :
    drvReplies (w.run cs).2 = (w.drv.run w.g (drvOps cs)).2.2 ∧
    (w.run cs).1.drv = (w.drv.run w.g (drvOps cs)).2.1 :=
  world_drv w cs

/-- C35: a monitor of an undefined formula has no formula, and evaluating it returns the stored
value 0 without evaluating or failing, in every history. -/
theorem C35_undefined (g : Globals) (d : Driver) (id : String) (h : d.formulas.lookup id = none)
    (ops : List MonOp) (s e : ℚ) :
    let m := ((d.getMonitor g id).run g ops).2.1
    m.formula = none ∧ (m.evalRob g s e) = (g, m, .ok 0) := by
  have key : ∀ (m : Monitor) (g : Globals), m.formula = none → m.rob = 0 →
      (m.run g ops).2.1.formula = none ∧ (m.run g ops).2.1.rob = 0 := by
    induction ops with
    | nil => intro m g h1 h2; exact ⟨h1, h2⟩
    | cons op ops ih =>
      intro m g h1 h2
      have hs : (m.step g op).2.1.formula = none ∧ (m.step g op).2.1.rob = 0 := by
        have hev : ∀ s e, m.evalRob g s e = (g, m, .ok m.rob) := fun s e => by
          simp only [Monitor.evalRob, h1]
        cases op with
        | addSample row =>
          simp only [Monitor.step, Monitor.addSample]
          cases Monitor.pushRow m.data m.smap.length row <;> exact ⟨h1, h2⟩
        | setParam n x =>
          simp only [Monitor.step, Monitor.setParam]
          cases m.params.lookup n with
          | none => exact ⟨h1, h2⟩
          | some p => simp only; split_ifs <;> exact ⟨h1, h2⟩
        | setSemantics s =>
          simp only [Monitor.step, Monitor.setSemantics]
          cases Monitor.parseSemantics s <;> exact ⟨h1, h2⟩
        | setInterpol s =>
          simp only [Monitor.step, Monitor.setInterpol]
          cases Monitor.parseInterpol s <;> exact ⟨h1, h2⟩
        | eval0 => simp only [Monitor.step, Monitor.evalRob0, hev]; exact ⟨h1, h2⟩
        | eval1 t => simp only [Monitor.step, Monitor.evalRob1, hev]; exact ⟨h1, h2⟩
        | eval2 s e => simp only [Monitor.step, hev]; exact ⟨h1, h2⟩
        | _ => exact ⟨h1, h2⟩
      exact ih _ _ hs.1 hs.2
  have hm : d.getMonitor g id = Monitor.init := by simp only [Driver.getMonitor, h]
  obtain ⟨h1, h2⟩ := key (d.getMonitor g id) g (by rw [hm]; rfl) (by rw [hm]; rfl)
  exact ⟨h1, by simp only [Monitor.evalRob, h1, h2]⟩

example : drv0.formulas.lookup "f" = some evPQ ∧ drv0.formulas.lookup "h" = none ∧
    Keeps 0 [.drv (.addSample [9, 9]), .drv (.setParam "q" 5), .mon 0 (.eval1 0)] ∧
    numbers (mon0.step .init (.eval1 0)).2.2 ≠
      numbers (((drv0.run .init [.setParam "q" 5]).2.1.getMonitor .init "f").step .init
        (.eval1 0)).2.2 := by
  refine ⟨by decide +kernel, by decide +kernel, ?_, by decide +kernel⟩
  intro c hc
  simp only [List.mem_cons, List.not_mem_nil, or_false] at hc
  rcases hc with rfl | rfl | rfl <;> exact ⟨by simp, by simp⟩

/-! ## C36: copies and moves -/

/-- C36: a copy gives the same replies as the original under the same calls. -/
theorem C36_copy (g : Globals) (m : Monitor) (ops : List MonOp) :
    (m.copy.run g ops).2.2 = (m.run g ops).2.2 :=
  (run_sim rfl (sim_copy m) ops).1

/-- C36: a moved monitor is the original; the source keeps no formula and no data. -/
theorem C36_move (g : Globals) (m : Monitor) (ops : List MonOp) :
    (m.move.1.run g ops).2.2 = (m.run g ops).2.2 ∧
    m.move.2.formula = none ∧ m.move.2.data = [] :=
  ⟨rfl, rfl, rfl⟩

/-- C36: after a copy inside a program, neither object affects the other. -/
theorem C36_independent (w : World) (i : ℕ) (m : Monitor) (hm : w.mons[i]? = some m)
    (cs : List Cmd) (hi : Keeps i cs) (hc : Keeps w.mons.length cs) :
    monReplies i ((w.step (.copyMonitor i)).1.run cs).2 = (m.run w.g (monOps i cs)).2.2 ∧
    monReplies w.mons.length ((w.step (.copyMonitor i)).1.run cs).2 =
      (m.run w.g (monOps w.mons.length cs)).2.2 := by
  have hlt : i < w.mons.length := by
    by_contra h
    rw [List.getElem?_eq_none (not_lt.1 h)] at hm
    simp at hm
  have e : (w.step (.copyMonitor i)).1 = { w with mons := w.mons ++ [m.copy] } := by
    simp only [World.step, hm]
  rw [e]
  refine ⟨(world_mon _ i m ?_ cs hi).1, ?_⟩
  · simp only [List.getElem?_append_left hlt]; exact hm
  · rw [(world_mon { w with mons := w.mons ++ [m.copy] } _ m.copy (by simp) cs hc).1]
    exact (run_sim rfl (sim_copy m) _).1

/-- C36: assignment replaces the target by a copy. -/
theorem C36_assign (w : World) (i j : ℕ) (mi m : Monitor) (hi : w.mons[i]? = some mi)
    (hj : w.mons[j]? = some m) (cs : List Cmd) (hc : Keeps i cs) :
    monReplies i ((w.step (.assignMonitor i j)).1.run cs).2 = (m.run w.g (monOps i cs)).2.2 := by
  have hlt : i < w.mons.length := by
    by_contra h
    rw [List.getElem?_eq_none (not_lt.1 h)] at hi
    simp at hi
  have e : (w.step (.assignMonitor i j)).1 =
      { w with mons := w.mons.set i (if i = j then m else m.copy) } := by
    simp only [World.step, hi, hj]
  rw [e, (world_mon _ i (if i = j then m else m.copy) (by simp [hlt]) cs hc).1]
  split_ifs
  · rfl
  · exact (run_sim rfl (sim_copy m) _).1

/-- The copy of an evaluated monitor is a different state with the same replies. -/
example :
    let m := (mon0.step .init (.eval1 0)).2.1
    m.copy ≠ m ∧ numbers (m.copy.step .init (.eval2 0 1)).2.2 = .ok [6, 6, 6] := by
  decide +kernel

/-! ## C37: `get_online_rob` agrees with a monitor -/

/-- C37: for a defined formula and non-empty data, the vector is the report of a fresh monitor
evaluated at `t0`; a fault of one is a fault of the other. -/
theorem C37_online (g : Globals) (d : Driver) (id : String) (t0 : ℚ) (T : Tr)
    (h : d.formulas.lookup id = some T) (hd : d.data ≠ []) :
    (d.getOnlineRob g id t0).2.2 =
      numbers ((d.getMonitor g id).step g (.eval1 t0)).2.2 := by
  have h2 : (d.getMonitor g id).formula = some T.clone := by
    simp only [Driver.getMonitor, h]
  have e : (d.getMonitor g id).step g (.eval1 t0) = (d.getMonitor g id).step g (.eval2 t0 t0) := rfl
  rw [e, numbers_eval g _ _ h2, onlineRob_eq g d id t0 T hd h]
  simp only [Driver.getMonitor, h]
  exact run3_map_congr (env := ⟨g.B, d.sem, d.ip, d.data, d.params⟩)
    (b := emptyKey d.params) (fun h => h) (Tr.forgetB_clone _ T).symm t0 t0 _

/-- C37: an unknown formula or empty data gives the empty vector. -/
theorem C37_empty (g : Globals) (d : Driver) (id : String) (t0 : ℚ)
    (h : d.formulas.lookup id = none ∨ d.data = []) :
    d.getOnlineRob g id t0 = (g, d, .ok []) := by
  unfold Driver.getOnlineRob
  by_cases hd : d.data = []
  · rw [if_pos hd]
  · rcases h with h | h
    · rw [if_neg hd, h]
    · exact absurd h hd

example : (drv0.getOnlineRob .init "f" 0).2.2 = .ok [6, 6, 6] ∧
    (drv0.getOnlineRob .init "h" 0).2.2 = .ok [] ∧
    ((drv0.run .init [.setParam "q" 3, .onlineRob "f" 1, .addSample [6, 9]]).2.1.getOnlineRob
      .init "f" 3).2.2 = .ok [1, 1, 1] := by
  decide +kernel

/-! ## C54: horizons -/

/-- C54: whatever the tree looked like, `set_horizon(s, e)` terminates, gives every subformula
the interval its parent needs and changes nothing else. -/
theorem C54_horizon (P : Assoc ℚ) (s e : ℚ) (T : Tr) :
    ∃ T', Tr.SetHorizon P s e T T' ∧ (∀ T'', Tr.SetHorizon P s e T T'' → T'' = T') ∧
      HasHorizon P s e T' ∧ eraseHorizon T' = eraseHorizon T := by
  refine ⟨_, (Tr.setHorizon_iff P s e T _).2 rfl, fun T'' h => (Tr.setHorizon_iff P s e T _).1 h,
    Tr.hasHorizon_setHorizon P T s e, Tr.erase_setHorizon P T s e⟩

/-- C54: repeating the call changes nothing. -/
theorem C54_idempotent (P : Assoc ℚ) (s e : ℚ) (T T' T'' : Tr)
    (h1 : Tr.SetHorizon P s e T T') (h2 : Tr.SetHorizon P s e T' T'') : T'' = T' := by
  rw [(Tr.setHorizon_iff P s e _ _).1 h2, (Tr.setHorizon_iff P s e _ _).1 h1,
    Tr.setHorizon_setHorizon]

/-- C54: the one-pass function that the evaluation model uses is what the calls compute. -/
theorem C54_model (P : Assoc ℚ) (s e : ℚ) (T T' : Tr) :
    Tr.SetHorizon P s e T T' ↔ T' = T.setHorizon P s e :=
  Tr.setHorizon_iff P s e T T'

/-- `alw_[1,2] ev_[0,p] (x[t] > q)` from `[3, 4]` with `p = 5`: the atom is needed on
`[4, 11]`. -/
example :
    let T : Tr := .alw .init ⟨1, 2, "", ""⟩ evPQ
    ∃ s1 s2 I1 I2 A, T.setHorizon [("p", 5)] 3 4 = .alw s1 I1 (.ev s2 I2 A) ∧
      s2.start = 4 ∧ s2.stop = 6 ∧ A.st.start = 4 ∧ A.st.stop = 11 := by
  refine ⟨_, _, _, _, _, rfl, ?_⟩
  decide +kernel

/-! ## C55: BigM -/

/-- C55 holds for integers that fit in an `int`. -/
theorem C55_bigM_partial (g : Globals) (n : ℤ) (h1 : -2147483648 ≤ n) (h2 : n ≤ 2147483647) :
    (g.setBigM n).getBigM = .ok n := by
  simp only [Globals.setBigM, Globals.getBigM]
  have : (n : ℚ).num.tdiv ((n : ℚ).den : ℤ) = n := by simp
  simp only [this]
  rw [if_pos ⟨h1, h2⟩]

/-- C55 is false in general: a fraction is truncated, and a large bound is undefined
behaviour. -/
theorem C55_false : ¬ ∀ (g : Globals) (x : ℚ), ∃ n : ℤ, (g.setBigM x).getBigM = .ok n ∧ (n : ℚ) = x := by
  intro h
  obtain ⟨n, h1, h2⟩ := h .init (5 / 2)
  have h3 : (Globals.init.setBigM (5 / 2)).getBigM = .ok 2 := by decide +kernel
  rw [h3] at h1
  obtain rfl := Except.ok.inj h1
  norm_num at h2

/-- C55: a bound of ten thousand million cannot be read back at all. -/
theorem C55_large_false : (Globals.init.setBigM 10000000000).getBigM = .error .ub := by
  decide +kernel

example : (-2147483648 : ℤ) ≤ 10000 ∧ (10000 : ℤ) ≤ 2147483647 := by decide

/-! ## C57: writing an undeclared parameter of a driver -/

/-- C57 for non-empty names: writing a name that is not declared leaves every evaluation through
the driver as it was. -/
theorem C57_undeclared_partial (g : Globals) (d : Driver) (p : String) (v : ℚ)
    (h : d.params.lookup p = none) (hp : p ≠ "") (id : String) (t0 : ℚ) :
    ((d.step g (.setParam p v)).2.1.getOnlineRob g id t0).2.2 = (d.getOnlineRob g id t0).2.2 := by
  have hl : (d.step g (.setParam p v)).2.1.formulas.lookup id =
      (d.formulas.lookup id).map (Tr.setParam p v) := lookup_map d.formulas _ id
  have hP : (d.step g (.setParam p v)).2.1.params = d.params := (C32_unknown g d p v h).2.1
  have hd : (d.step g (.setParam p v)).2.1.data = d.data := rfl
  have hs : (d.step g (.setParam p v)).2.1.sem = d.sem := rfl
  have hi : (d.step g (.setParam p v)).2.1.ip = d.ip := rfl
  by_cases hd0 : d.data = []
  · rw [C37_empty g d id t0 (Or.inr hd0),
      C37_empty g _ id t0 (Or.inr (by rw [hd]; exact hd0))]
  cases hT : d.formulas.lookup id with
  | none =>
    rw [C37_empty g d id t0 (Or.inl hT), C37_empty g _ id t0 (Or.inl (by rw [hl, hT]; rfl))]
  | some T =>
    rw [hT] at hl
    rw [onlineRob_eq g d id t0 T hd0 hT, onlineRob_eq g _ id t0 (T.setParam p v)
      (by rw [hd]; exact hd0) hl, hP, hd, hs, hi]
    exact run3_map_congr (env := ⟨g.B, d.sem, d.ip, d.data, d.params⟩)
      (b := emptyKey d.params) (fun h => h)
      (Tr.forgetB_setParam _ p v (fun h => absurd h hp) T) t0 t0 _

/-- C57 is false for the empty name: `set_param("", 100)` overwrites the literal of
`x[t] > 3`. -/
theorem C57_false : ¬ ∀ (g : Globals) (d : Driver) (p : String) (v : ℚ),
    d.params.lookup p = none → ∀ (id : String) (t0 : ℚ),
      ((d.step g (.setParam p v)).2.1.getOnlineRob g id t0).2.2 =
        (d.getOnlineRob g id t0).2.2 := by
  intro h
  have := h .init drv0 "" 100 (by decide +kernel) "g" 0
  revert this
  decide +kernel

example : drv0.params.lookup "r" = none ∧
    (drv0.getOnlineRob .init "g" 0).2.2 = .ok [2, 2, 2] ∧
    ((drv0.step .init (.setParam "" 100)).2.1.getOnlineRob .init "g" 0).2.2 =
      .ok [-95, -95, -95] := by
  decide +kernel

end Props
end STLRom
