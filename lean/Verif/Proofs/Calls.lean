import Verif.Proofs.World
import Verif.Proofs.Inline

namespace STLRom
open Spec

/-! ## `add_sample` -/

theorem pushRow_ok {data : List (List ℚ)} {n : ℕ} {row : List ℚ} (hd : ∀ r ∈ data, r ≠ [])
    (h : Accepts n data row) : Monitor.pushRow data n row = .ok (data ++ [row]) := by
  obtain ⟨h1, h2⟩ := h
  unfold Monitor.pushRow
  rw [if_neg (not_not.2 h1)]
  cases hl : data.getLast? with
  | none => rfl
  | some last =>
    cases row with
    | nil => simp at h1
    | cons u row =>
      have hm : last ∈ data := List.mem_of_getLast? hl
      cases last with
      | nil => exact absurd rfl (hd _ hm)
      | cons t last =>
        have := h2 _ hl t u rfl rfl
        simp only
        rw [if_neg (not_le.2 this)]

theorem pushRow_exn {data : List (List ℚ)} {n : ℕ} {row : List ℚ} (hd : ∀ r ∈ data, r ≠ [])
    (h : ¬ Accepts n data row) : ∃ msg, Monitor.pushRow data n row = .error (.exn msg) := by
  unfold Monitor.pushRow
  by_cases h1 : row.length = n + 1
  · rw [if_neg (not_not.2 h1)]
    cases hl : data.getLast? with
    | none => exact absurd ⟨h1, by simp [hl]⟩ h
    | some last =>
      cases row with
      | nil => simp at h1
      | cons u row =>
        have hm : last ∈ data := List.mem_of_getLast? hl
        cases last with
        | nil => exact absurd rfl (hd _ hm)
        | cons t last =>
          simp only
          split_ifs with h2
          · exact ⟨_, rfl⟩
          · refine absurd ⟨h1, ?_⟩ h
            intro l' hl' a b ha hb
            rw [hl] at hl'
            obtain rfl := Option.some.inj hl'
            obtain rfl := Option.some.inj ha
            obtain rfl := Option.some.inj hb
            exact not_le.1 h2
  · rw [if_pos h1]; exact ⟨_, rfl⟩

theorem WellShaped.ne {n : ℕ} {data : List (List ℚ)} (h : WellShaped n data) :
    ∀ r ∈ data, r ≠ [] := by
  intro r hr h'
  have := h.1 r hr
  simp [h'] at this

theorem WellShaped.push {n : ℕ} {data : List (List ℚ)} {row : List ℚ} (h : WellShaped n data)
    (ha : Accepts n data row) : WellShaped n (data ++ [row]) := by
  refine ⟨?_, ?_⟩
  · intro r hr
    rcases List.mem_append.1 hr with hr | hr
    · exact h.1 r hr
    · simp only [List.mem_singleton] at hr; rw [hr]; exact ha.1
  · rw [List.pairwise_append]
    refine ⟨h.2, by simp, ?_⟩
    intro r hr s hs t u ht hu
    simp only [List.mem_singleton] at hs
    subst hs
    -- `r` is the last row or strictly before it
    obtain ⟨l, hl⟩ : ∃ l, data.getLast? = some l := by
      cases hd : data.getLast? with
      | none => rw [List.getLast?_eq_none_iff] at hd; simp [hd] at hr
      | some l => exact ⟨l, rfl⟩
    have hlm : l ∈ data := List.mem_of_getLast? hl
    obtain ⟨v, hv⟩ : ∃ v, l.head? = some v := by
      cases l with
      | nil => exact absurd rfl (WellShaped.ne h _ hlm)
      | cons v l => exact ⟨v, rfl⟩
    have h2 := ha.2 l hl v u hv hu
    have hp := h.2
    have hds : data = data.dropLast ++ [l] := by
      have hne : data ≠ [] := by rintro rfl; simp at hr
      have : data.getLast hne = l := by
        rw [List.getLast?_eq_some_getLast hne] at hl; exact Option.some.inj hl
      rw [← this, List.dropLast_concat_getLast]
    rw [hds] at hr hp
    rcases List.mem_append.1 hr with hr | hr
    · rw [List.pairwise_append] at hp
      exact (hp.2.2 r hr l (by simp) t v ht hv).trans h2
    · simp only [List.mem_singleton] at hr
      subst hr
      rw [ht] at hv
      obtain rfl := Option.some.inj hv
      exact h2

theorem pushRow_shape {data d : List (List ℚ)} {n : ℕ} {row : List ℚ} (h : WellShaped n data)
    (hp : Monitor.pushRow data n row = .ok d) : WellShaped n d := by
  by_cases ha : Accepts n data row
  · rw [pushRow_ok (WellShaped.ne h) ha] at hp
    obtain rfl := Except.ok.inj hp
    exact WellShaped.push h ha
  · obtain ⟨msg, hm⟩ := pushRow_exn (WellShaped.ne h) ha
    rw [hm] at hp; simp at hp

/-! ## What each call leaves alone -/

theorem evalRob_keeps (g : Globals) (m : Monitor) (s e : ℚ) :
    (m.evalRob g s e).2.1.data = m.data ∧ (m.evalRob g s e).2.1.smap = m.smap ∧
    (m.evalRob g s e).2.1.params = m.params ∧ (m.evalRob g s e).2.1.sem = m.sem ∧
    (m.evalRob g s e).2.1.ip = m.ip := by
  have h := evalRob_sim g m s e
  exact ⟨h.data, h.smap, h.params, h.sem, h.ip⟩

/-- The monitor's rows fit its signal map. -/
def Shape (m : Monitor) : Prop := WellShaped m.smap.length m.data

theorem shape_step (g : Globals) (m : Monitor) (op : MonOp) (h : Shape m) :
    Shape (m.step g op).2.1 ∧ (m.step g op).2.1.smap = m.smap := by
  have hev : ∀ s e, Shape (m.evalRob g s e).2.1 ∧ (m.evalRob g s e).2.1.smap = m.smap := by
    intro s e
    obtain ⟨h1, h2, -⟩ := evalRob_keeps g m s e
    unfold Shape
    rw [h1, h2]
    exact ⟨h, rfl⟩
  cases op with
  | addSample row =>
    simp only [Monitor.step, Monitor.addSample]
    cases hp : Monitor.pushRow m.data m.smap.length row with
    | error f => exact ⟨h, rfl⟩
    | ok d => exact ⟨pushRow_shape h hp, rfl⟩
  | setParam n x =>
    simp only [Monitor.step, Monitor.setParam]
    cases m.params.lookup n with
    | none => exact ⟨h, rfl⟩
    | some p =>
      simp only
      split_ifs
      · exact ⟨h, rfl⟩
      · exact ⟨h, rfl⟩
  | setSemantics s =>
    simp only [Monitor.step, Monitor.setSemantics]
    cases Monitor.parseSemantics s <;> exact ⟨h, rfl⟩
  | setInterpol s =>
    simp only [Monitor.step, Monitor.setInterpol]
    cases Monitor.parseInterpol s <;> exact ⟨h, rfl⟩
  | setEvalTime s e => exact ⟨h, rfl⟩
  | resetData => exact ⟨⟨by simp [Monitor.step, Monitor.resetSignalData],
      by simp [Monitor.step, Monitor.resetSignalData]⟩, rfl⟩
  | eval0 => exact hev _ _
  | eval1 t => exact hev _ _
  | eval2 s e => exact hev _ _
  | getParam n => exact ⟨h, rfl⟩
  | getSemantics => exact ⟨h, rfl⟩
  | getInterpol => exact ⟨h, rfl⟩

/-- The driver's rows fit its signal map. -/
def ShapeD (d : Driver) : Prop := WellShaped d.smap.length d.data

theorem onlineRob_keeps (g : Globals) (d : Driver) (id : String) (t : ℚ) :
    (d.getOnlineRob g id t).2.1.data = d.data ∧ (d.getOnlineRob g id t).2.1.smap = d.smap ∧
    (d.getOnlineRob g id t).2.1.params = d.params ∧ (d.getOnlineRob g id t).2.1.sem = d.sem ∧
    (d.getOnlineRob g id t).2.1.ip = d.ip := by
  unfold Driver.getOnlineRob
  split_ifs
  · simp
  · cases d.formulas.lookup id with
    | none => simp
    | some T =>
      simp only
      cases Monitor.run3 ⟨g.B, d.sem, d.ip, d.data, d.params⟩
        (Monitor.prepare d.params t t T) <;> simp

theorem shapeD_step (g : Globals) (d : Driver) (op : DrvOp) (h : ShapeD d) :
    ShapeD (d.step g op).2.1 ∧ (d.step g op).2.1.smap = d.smap := by
  cases op with
  | addSample row =>
    simp only [Driver.step, Driver.addSample]
    cases hp : Monitor.pushRow d.data d.smap.length row with
    | error f => exact ⟨h, rfl⟩
    | ok d => exact ⟨pushRow_shape h hp, rfl⟩
  | setSemantics s =>
    simp only [Driver.step, Driver.setSemantics]
    cases Monitor.parseSemantics s <;> exact ⟨h, rfl⟩
  | setInterpol s =>
    simp only [Driver.step, Driver.setInterpol]
    cases Monitor.parseInterpol s <;> exact ⟨h, rfl⟩
  | onlineRob id t =>
    obtain ⟨h1, h2, -⟩ := onlineRob_keeps g d id t
    have e : (d.step g (.onlineRob id t)).2.1 = (d.getOnlineRob g id t).2.1 := rfl
    rw [e]
    unfold ShapeD
    rw [h1, h2]
    exact ⟨h, rfl⟩
  | setParam n x => exact ⟨h, rfl⟩
  | getParam n => exact ⟨h, rfl⟩
  | getSemantics => exact ⟨h, rfl⟩
  | getInterpol => exact ⟨h, rfl⟩

/-- Every object of a program has well-shaped data. -/
def ShapeW (w : World) : Prop := ShapeD w.drv ∧ ∀ m ∈ w.mons, Shape m

theorem shape_nil (m : Monitor) (h : m.data = []) : Shape m := by
  unfold Shape
  rw [h]
  exact ⟨by simp, by simp⟩

theorem shapeW_step (w : World) (c : Cmd) (h : ShapeW w) : ShapeW (w.step c).1 := by
  obtain ⟨hd, hm⟩ := h
  have app : ∀ ms m, (∀ m ∈ ms, Shape m) → Shape m → ∀ m' ∈ ms ++ [m], Shape m' := by
    intro ms m h1 h2 m' h3
    rcases List.mem_append.1 h3 with h3 | h3
    · exact h1 _ h3
    · simp only [List.mem_singleton] at h3; rw [h3]; exact h2
  have upd : ∀ i m, Shape m → ∀ m' ∈ w.mons.set i m, Shape m' := by
    intro i m h1 m' h2
    rcases List.mem_or_eq_of_mem_set h2 with h2 | h2
    · exact hm _ h2
    · rw [h2]; exact h1
  cases c with
  | drv op => exact ⟨(shapeD_step w.g w.drv op hd).1, hm⟩
  | mon i op =>
    simp only [World.step]
    cases hi : w.mons[i]? with
    | none => exact ⟨hd, hm⟩
    | some m => exact ⟨hd, upd i _ (shape_step w.g m op (hm m (List.mem_of_getElem? hi))).1⟩
  | getMonitor id =>
    refine ⟨hd, app _ _ hm ?_⟩
    unfold Driver.getMonitor
    cases w.drv.formulas.lookup id with
    | none => exact shape_nil _ rfl
    | some T => exact hd
  | copyMonitor i =>
    simp only [World.step]
    cases hi : w.mons[i]? with
    | none => exact ⟨hd, hm⟩
    | some m => exact ⟨hd, app _ _ hm (hm m (List.mem_of_getElem? hi))⟩
  | assignMonitor i j =>
    simp only [World.step]
    cases hi : w.mons[i]? <;> cases hj : w.mons[j]?
    · exact ⟨hd, hm⟩
    · exact ⟨hd, hm⟩
    · exact ⟨hd, hm⟩
    · rename_i m' m
      have hs : Shape m := hm m (List.mem_of_getElem? hj)
      refine ⟨hd, upd i _ ?_⟩
      split_ifs
      · exact hs
      · exact hs
  | moveMonitor i =>
    simp only [World.step]
    cases hi : w.mons[i]? with
    | none => exact ⟨hd, hm⟩
    | some m =>
      exact ⟨hd, app _ _ (upd i _ (shape_nil _ rfl)) (hm m (List.mem_of_getElem? hi))⟩
  | globalSemantics s =>
    simp only [World.step]; cases w.g.setSemantics s <;> exact ⟨hd, hm⟩
  | globalInterpol s =>
    simp only [World.step]; cases w.g.setInterpol s <;> exact ⟨hd, hm⟩

theorem shapeW_run (w : World) (cs : List Cmd) (h : ShapeW w) : ShapeW (w.run cs).1 := by
  induction cs generalizing w with
  | nil => exact h
  | cons c cs ih => exact ih _ (shapeW_step w c h)

/-! ## Evaluation depends on the inputs only -/

theorem SameInputs.eval {g g' : Globals} (hg : g.B = g'.B) {m m' : Monitor}
    (h : SameInputs m m') (s e : ℚ) :
    (m.step g (.eval2 s e)).2.2 = (m'.step g' (.eval2 s e)).2.2 := by
  obtain ⟨T, T', h1, h2, h3⟩ := h.formula
  have hb : T.forgetB (emptyKey m.params) = T'.forgetB (emptyKey m.params) := by
    rw [← Tr.forgetB_forget, h3, Tr.forgetB_forget]
  have hr := run3_congr (env := ⟨g.B, m.sem, m.ip, m.data, m.params⟩) (fun h => h) hb s e
  simp only at hr
  simp only [Monitor.step]
  unfold Monitor.evalRob
  simp only [h1, h2]
  rw [← hg, ← h.sem, ← h.ip, ← h.data, ← h.params, ← hr]
  cases Monitor.run3 ⟨g.B, m.sem, m.ip, m.data, m.params⟩
      (Monitor.prepare m.params s e T) with
  | error f => rfl
  | ok a => rfl

/-! ## Parameters and settings along a history -/

theorem setParam_ok {m : Monitor} {n : String} {v : ℚ} (h : m.params.lookup n = some v) (x : ℚ) :
    ∃ m', m.setParam n x = .ok m' ∧
      (∀ k, m'.params.lookup k = if k = n then some x else m.params.lookup k) ∧
      m' = { m with params := m'.params } := by
  unfold Monitor.setParam
  rw [h]
  simp only
  split_ifs with hx
  · exact ⟨_, rfl, fun k => Assoc.lookup_set _ _ _ _, rfl⟩
  · have hx : x = v := not_not.1 hx
    refine ⟨m, rfl, ?_, rfl⟩
    intro k
    split_ifs with hk
    · rw [hk, h, hx]
    · rfl

theorem step_params (g : Globals) (m : Monitor) (op : MonOp) (k : String) :
    (m.step g op).2.1.params.lookup k =
      (m.params.lookup k).map fun v => lastWrite k v [op] := by
  have hid : ∀ o : Option ℚ, o = o.map fun v => v := fun o => by cases o <;> rfl
  cases op with
  | addSample row =>
    simp only [Monitor.step, Monitor.addSample]
    cases Monitor.pushRow m.data m.smap.length row <;> exact hid _
  | setParam n x =>
    cases hl : m.params.lookup n with
    | none =>
      have : m.setParam n x = .error (invalidArgument "Parameter does not exist in param_map") := by
        unfold Monitor.setParam; rw [hl]
      simp only [Monitor.step, this, tryCall, lastWrite]
      by_cases hk : n = k
      · subst hk; rw [hl]; rfl
      · simp only [if_neg hk]; exact hid _
    | some v =>
      obtain ⟨m', h1, h2, -⟩ := setParam_ok hl x
      simp only [Monitor.step, h1, tryCall, lastWrite, h2]
      by_cases hk : k = n
      · subst hk; rw [hl]; simp
      · rw [if_neg hk]
        have : ¬ n = k := fun h => hk h.symm
        simp only [if_neg this]; exact hid _
  | setSemantics s =>
    simp only [Monitor.step, Monitor.setSemantics]
    cases Monitor.parseSemantics s <;> exact hid _
  | setInterpol s =>
    simp only [Monitor.step, Monitor.setInterpol]
    cases Monitor.parseInterpol s <;> exact hid _
  | eval0 =>
    exact (congrArg (List.lookup k) (evalRob_keeps g m m.start m.stop).2.2.1).trans (hid _)
  | eval1 t => exact (congrArg (List.lookup k) (evalRob_keeps g m t t).2.2.1).trans (hid _)
  | eval2 s e => exact (congrArg (List.lookup k) (evalRob_keeps g m s e).2.2.1).trans (hid _)
  | _ => exact hid _

theorem lastWrite_cons (k : String) (v : ℚ) (op : MonOp) (ops : List MonOp) :
    lastWrite k v (op :: ops) = lastWrite k (lastWrite k v [op]) ops := by
  cases op <;> rfl

theorem run_params (g : Globals) (m : Monitor) (ops : List MonOp) (k : String) :
    (m.run g ops).2.1.params.lookup k = (m.params.lookup k).map fun v => lastWrite k v ops := by
  induction ops generalizing g m with
  | nil => simp only [Monitor.run, lastWrite]; cases m.params.lookup k <;> rfl
  | cons op ops ih =>
    have e : (m.run g (op :: ops)).2.1 = ((m.step g op).2.1.run (m.step g op).1 ops).2.1 := rfl
    rw [e, ih, step_params, Option.map_map]
    congr 1
    funext v
    exact (lastWrite_cons k v op ops).symm

theorem parseSemantics_iff (s : String) :
    (s ∈ semanticsNames → ∃ v, Monitor.parseSemantics s = .ok v ∧ Monitor.showSemantics v = .ok s) ∧
    (s ∉ semanticsNames → ∃ msg, Monitor.parseSemantics s = .error (.exn msg)) := by
  unfold Monitor.parseSemantics semanticsNames
  by_cases h1 : s = "SPACE"
  · subst h1; exact ⟨fun _ => ⟨_, rfl, rfl⟩, fun h => absurd (by simp) h⟩
  by_cases h2 : s = "LEFT_TIME"
  · subst h2; exact ⟨fun _ => ⟨_, rfl, rfl⟩, fun h => absurd (by simp) h⟩
  by_cases h3 : s = "RIGHT_TIME"
  · subst h3; exact ⟨fun _ => ⟨_, rfl, rfl⟩, fun h => absurd (by simp) h⟩
  rw [if_neg h1, if_neg h2, if_neg h3]
  refine ⟨fun h => ?_, fun _ => ⟨_, rfl⟩⟩
  simp [h1, h2, h3] at h

theorem parseInterpol_iff (s : String) :
    (s ∈ interpolNames → ∃ v, Monitor.parseInterpol s = .ok v ∧ Monitor.showInterpol v = .ok s) ∧
    (s ∉ interpolNames → ∃ msg, Monitor.parseInterpol s = .error (.exn msg)) := by
  unfold Monitor.parseInterpol interpolNames
  by_cases h1 : s = "PREVIOUS"
  · subst h1; exact ⟨fun _ => ⟨_, rfl, rfl⟩, fun h => absurd (by simp) h⟩
  by_cases h2 : s = "LINEAR"
  · subst h2; exact ⟨fun _ => ⟨_, rfl, rfl⟩, fun h => absurd (by simp) h⟩
  rw [if_neg h1, if_neg h2]
  refine ⟨fun h => ?_, fun _ => ⟨_, rfl⟩⟩
  simp [h1, h2] at h

theorem setParam_fields {m m' : Monitor} {n : String} {x : ℚ} (h : m.setParam n x = .ok m') :
    m'.sem = m.sem ∧ m'.ip = m.ip := by
  unfold Monitor.setParam at h
  cases hl : m.params.lookup n with
  | none => rw [hl] at h; simp at h
  | some v =>
    rw [hl] at h
    simp only at h
    split_ifs at h
    · obtain rfl := Except.ok.inj h; exact ⟨rfl, rfl⟩
    · obtain rfl := Except.ok.inj h; exact ⟨rfl, rfl⟩

theorem step_settings (g : Globals) (m : Monitor) (op : MonOp) {a b : String}
    (ha : m.getSemantics = .ok a) (hb : m.getInterpol = .ok b) :
    (m.step g op).2.1.getSemantics = .ok (lastSemantics a [op]) ∧
    (m.step g op).2.1.getInterpol = .ok (lastInterpol b [op]) := by
  have hev : ∀ s e, (m.evalRob g s e).2.1.getSemantics = .ok a ∧
      (m.evalRob g s e).2.1.getInterpol = .ok b := by
    intro s e
    obtain ⟨-, -, -, h1, h2⟩ := evalRob_keeps g m s e
    unfold Monitor.getSemantics Monitor.getInterpol
    rw [h1, h2]; exact ⟨ha, hb⟩
  cases op with
  | addSample row =>
    simp only [Monitor.step, Monitor.addSample]
    cases Monitor.pushRow m.data m.smap.length row <;> exact ⟨ha, hb⟩
  | setParam n x =>
    simp only [Monitor.step]
    cases hp : m.setParam n x with
    | error f => exact ⟨ha, hb⟩
    | ok m' =>
      obtain ⟨h1, h2⟩ := setParam_fields hp
      simp only [tryCall, lastSemantics, lastInterpol, Monitor.getSemantics, Monitor.getInterpol,
        h1, h2]
      exact ⟨ha, hb⟩
  | setSemantics s =>
    simp only [Monitor.step, Monitor.setSemantics, lastSemantics, lastInterpol]
    by_cases hs : s ∈ semanticsNames
    · obtain ⟨v, h1, h2⟩ := (parseSemantics_iff s).1 hs
      rw [if_pos hs, h1]
      exact ⟨h2, hb⟩
    · obtain ⟨msg, h1⟩ := (parseSemantics_iff s).2 hs
      rw [if_neg hs, h1]
      exact ⟨ha, hb⟩
  | setInterpol s =>
    simp only [Monitor.step, Monitor.setInterpol, lastSemantics, lastInterpol]
    by_cases hs : s ∈ interpolNames
    · obtain ⟨v, h1, h2⟩ := (parseInterpol_iff s).1 hs
      rw [if_pos hs, h1]
      exact ⟨ha, h2⟩
    · obtain ⟨msg, h1⟩ := (parseInterpol_iff s).2 hs
      rw [if_neg hs, h1]
      exact ⟨ha, hb⟩
  | eval0 => exact hev _ _
  | eval1 t => exact hev _ _
  | eval2 s e => exact hev _ _
  | _ => exact ⟨ha, hb⟩

theorem run_settings (g : Globals) (m : Monitor) (ops : List MonOp) {a b : String}
    (ha : m.getSemantics = .ok a) (hb : m.getInterpol = .ok b) :
    (m.run g ops).2.1.getSemantics = .ok (lastSemantics a ops) ∧
    (m.run g ops).2.1.getInterpol = .ok (lastInterpol b ops) := by
  induction ops generalizing g m a b with
  | nil => exact ⟨ha, hb⟩
  | cons op ops ih =>
    obtain ⟨h1, h2⟩ := step_settings g m op ha hb
    have e1 : lastSemantics a (op :: ops) = lastSemantics (lastSemantics a [op]) ops := by
      cases op <;> rfl
    have e2 : lastInterpol b (op :: ops) = lastInterpol (lastInterpol b [op]) ops := by
      cases op <;> rfl
    rw [e1, e2]
    exact ih _ _ h1 h2

theorem stepD_params (g : Globals) (d : Driver) (op : DrvOp) (k : String) :
    (d.step g op).2.1.params.lookup k =
      (d.params.lookup k).map fun v => lastWriteD k v [op] := by
  have hid : ∀ o : Option ℚ, o = o.map fun v => v := fun o => by cases o <;> rfl
  cases op with
  | addSample row =>
    simp only [Driver.step, Driver.addSample]
    cases Monitor.pushRow d.data d.smap.length row <;> exact hid _
  | setParam n x =>
    simp only [Driver.step, Driver.setParam, lastWriteD]
    cases hl : d.params.lookup n with
    | none =>
      simp only [Option.isSome_none, Bool.false_eq_true, if_false]
      by_cases hk : n = k
      · subst hk; rw [hl]; rfl
      · simp only [if_neg hk]; exact hid _
    | some v =>
      simp only [Option.isSome_some, if_true, Assoc.lookup_set]
      by_cases hk : k = n
      · subst hk; rw [hl]; simp
      · rw [if_neg hk]
        have : ¬ n = k := fun h => hk h.symm
        simp only [if_neg this]; exact hid _
  | setSemantics s =>
    simp only [Driver.step, Driver.setSemantics]
    cases Monitor.parseSemantics s <;> exact hid _
  | setInterpol s =>
    simp only [Driver.step, Driver.setInterpol]
    cases Monitor.parseInterpol s <;> exact hid _
  | onlineRob id t =>
    exact (congrArg (List.lookup k) (onlineRob_keeps g d id t).2.2.1).trans (hid _)
  | _ => exact hid _

theorem runD_params (g : Globals) (d : Driver) (ops : List DrvOp) (k : String) :
    (d.run g ops).2.1.params.lookup k = (d.params.lookup k).map fun v => lastWriteD k v ops := by
  induction ops generalizing g d with
  | nil => simp only [Driver.run, lastWriteD]; cases d.params.lookup k <;> rfl
  | cons op ops ih =>
    have e : (d.run g (op :: ops)).2.1 = ((d.step g op).2.1.run (d.step g op).1 ops).2.1 := rfl
    rw [e, ih, stepD_params, Option.map_map]
    congr 1
    funext v
    cases op <;> rfl

theorem stepD_settings (g : Globals) (d : Driver) (op : DrvOp) {a b : String}
    (ha : d.getSemantics = .ok a) (hb : d.getInterpol = .ok b) :
    (d.step g op).2.1.getSemantics = .ok (lastSemanticsD a [op]) ∧
    (d.step g op).2.1.getInterpol = .ok (lastInterpolD b [op]) := by
  cases op with
  | addSample row =>
    simp only [Driver.step, Driver.addSample]
    cases Monitor.pushRow d.data d.smap.length row <;> exact ⟨ha, hb⟩
  | setSemantics s =>
    simp only [Driver.step, Driver.setSemantics, lastSemanticsD, lastInterpolD]
    by_cases hs : s ∈ semanticsNames
    · obtain ⟨v, h1, h2⟩ := (parseSemantics_iff s).1 hs
      rw [if_pos hs, h1]
      exact ⟨h2, hb⟩
    · obtain ⟨msg, h1⟩ := (parseSemantics_iff s).2 hs
      rw [if_neg hs, h1]
      exact ⟨ha, hb⟩
  | setInterpol s =>
    simp only [Driver.step, Driver.setInterpol, lastSemanticsD, lastInterpolD]
    by_cases hs : s ∈ interpolNames
    · obtain ⟨v, h1, h2⟩ := (parseInterpol_iff s).1 hs
      rw [if_pos hs, h1]
      exact ⟨ha, h2⟩
    · obtain ⟨msg, h1⟩ := (parseInterpol_iff s).2 hs
      rw [if_neg hs, h1]
      exact ⟨ha, hb⟩
  | onlineRob id t =>
    obtain ⟨-, -, -, h1, h2⟩ := onlineRob_keeps g d id t
    have e : (d.step g (.onlineRob id t)).2.1 = (d.getOnlineRob g id t).2.1 := rfl
    rw [e]
    unfold Driver.getSemantics Driver.getInterpol
    rw [h1, h2]; exact ⟨ha, hb⟩
  | _ => exact ⟨ha, hb⟩

theorem runD_settings (g : Globals) (d : Driver) (ops : List DrvOp) {a b : String}
    (ha : d.getSemantics = .ok a) (hb : d.getInterpol = .ok b) :
    (d.run g ops).2.1.getSemantics = .ok (lastSemanticsD a ops) ∧
    (d.run g ops).2.1.getInterpol = .ok (lastInterpolD b ops) := by
  induction ops generalizing g d a b with
  | nil => exact ⟨ha, hb⟩
  | cons op ops ih =>
    obtain ⟨h1, h2⟩ := stepD_settings g d op ha hb
    have e1 : lastSemanticsD a (op :: ops) = lastSemanticsD (lastSemanticsD a [op]) ops := by
      cases op <;> rfl
    have e2 : lastInterpolD b (op :: ops) = lastInterpolD (lastInterpolD b [op]) ops := by
      cases op <;> rfl
    rw [e1, e2]
    exact ih _ _ h1 h2

/-! ## Copies -/

theorem forget_clone (T : Tr) : forget T.clone = forget T := by
  induction T <;> simp only [Tr.clone, forget, *]

theorem sim_copy (m : Monitor) : Sim m.copy m := by
  refine ⟨rfl, rfl, rfl, rfl, rfl, rfl, rfl, ?_⟩
  cases h : m.formula with
  | none => exact Or.inl ⟨by simp [Monitor.copy, h], rfl, rfl, rfl, rfl⟩
  | some T => exact Or.inr ⟨T.clone, T, by simp [Monitor.copy, h], rfl, Tr.forgetB_clone _ _⟩

/-! ## `get_online_rob` and `get_monitor` -/

theorem onlineRob_eq (g : Globals) (d : Driver) (id : String) (t : ℚ) (T : Tr) (hd : d.data ≠ [])
    (hT : d.formulas.lookup id = some T) :
    (d.getOnlineRob g id t).2.2 =
      (Monitor.run3 ⟨g.B, d.sem, d.ip, d.data, d.params⟩ (Monitor.prepare d.params t t T)).map
        fun r => [r.2.1, r.2.2.1, r.2.2.2] := by
  unfold Driver.getOnlineRob
  rw [if_neg hd, hT]
  simp only
  cases Monitor.run3 ⟨g.B, d.sem, d.ip, d.data, d.params⟩ (Monitor.prepare d.params t t T) <;> rfl

theorem numbers_eval (g : Globals) (m : Monitor) (T : Tr) (hT : m.formula = some T) (s e : ℚ) :
    numbers (m.step g (.eval2 s e)).2.2 =
      (Monitor.run3 ⟨g.B, m.sem, m.ip, m.data, m.params⟩ (Monitor.prepare m.params s e T)).map
        fun r => [r.2.1, r.2.2.1, r.2.2.2] := by
  simp only [Monitor.step]
  unfold Monitor.evalRob
  rw [hT]
  simp only
  cases Monitor.run3 ⟨g.B, m.sem, m.ip, m.data, m.params⟩ (Monitor.prepare m.params s e T) <;> rfl

theorem run3_map_congr {b : Bool} {env : Env} (hb : b = true → (env.params.lookup "").isSome)
    {T T' : Tr} (h : T.forgetB b = T'.forgetB b) (s e : ℚ) {α : Type}
    (f : Tr × ℚ × ℚ × ℚ → α) :
    (Monitor.run3 env (Monitor.prepare env.params s e T)).map f =
      (Monitor.run3 env (Monitor.prepare env.params s e T')).map f := by
  rw [run3_congr hb h s e]

theorem lookup_map {α : Type} (l : Assoc α) (f : α → α) (k : String) :
    (List.map (fun p => (p.1, f p.2)) l).lookup k = (l.lookup k).map f := by
  induction l with
  | nil => rfl
  | cons a l ih =>
    obtain ⟨k', v⟩ := a
    simp only [List.map_cons, List.lookup]
    cases k == k' with
    | true => rfl
    | false => exact ih

/-! ## Inlining parameters -/

theorem getSignal_subst (P : Assoc ℚ) (T : Tr) : (substParams P T).getSignal = T.getSignal := by
  cases T with
  | const s p v t => simp only [substParams]; cases P.lookup p <;> rfl
  | _ => rfl

theorem inlined_eval (g : Globals) (m : Monitor) (T : Tr) (hT : m.formula = some T)
    (h0 : m.params.lookup "" = none) {P' : Assoc ℚ} (hs : Tr.Sub P' m.params) (s e : ℚ) :
    (Monitor.step g { m with formula := some (substParams m.params T), params := P' }
      (.eval2 s e)).2.2 = (m.step g (.eval2 s e)).2.2 := by
  simp only [Monitor.step]
  unfold Monitor.evalRob
  rw [hT]
  simp only
  have h := inline_run3 (env := ⟨g.B, m.sem, m.ip, m.data, m.params⟩) hs h0
    (Monitor.prepare m.params s e T)
  rw [Tr.inline_prepare hs h0] at h
  simp only at h
  rw [h]
  cases Monitor.run3 ⟨g.B, m.sem, m.ip, m.data, m.params⟩ (Monitor.prepare m.params s e T) with
  | error f => rfl
  | ok a =>
    obtain ⟨T', r, lo, up⟩ := a
    simp only [map_ok', Monitor.observe, Monitor.getSignal, getSignal_subst]

end STLRom
