import Verif.Proofs.History

/-!
# Programs over several objects
-/

namespace STLRom
open Spec

theorem evalRob_g {g g' : Globals} (hg : g.B = g'.B) (m : Monitor) (s e : ℚ) :
    (m.evalRob g s e).2 = (m.evalRob g' s e).2 := by
  unfold Monitor.evalRob
  cases m.formula with
  | none => rfl
  | some T =>
    simp only
    rw [hg]

/-- A call on a monitor does not read the shared settings. -/
theorem step_g {g g' : Globals} (hg : g.B = g'.B) (m : Monitor) (op : MonOp) :
    (m.step g op).2 = (m.step g' op).2 := by
  cases op with
  | eval0 =>
    exact congrArg (fun p : Monitor × M ℚ => (p.1, p.1.observe p.2)) (evalRob_g hg m m.start m.stop)
  | eval1 t => exact congrArg (fun p : Monitor × M ℚ => (p.1, p.1.observe p.2)) (evalRob_g hg m t t)
  | eval2 s e =>
    exact congrArg (fun p : Monitor × M ℚ => (p.1, p.1.observe p.2)) (evalRob_g hg m s e)
  | _ => rfl

theorem run_g {g g' : Globals} (hg : g.B = g'.B) (m : Monitor) (ops : List MonOp) :
    (m.run g ops).2 = (m.run g' ops).2 := by
  induction ops generalizing g g' m with
  | nil => rfl
  | cons op ops ih =>
    have h1 := step_g hg m op
    have h2 := ih (g := (m.step g op).1) (g' := (m.step g' op).1)
      (by rw [step_B, step_B, hg]) (m.step g op).2.1
    have e : ∀ g : Globals, (m.run g (op :: ops)).2 =
        (((m.step g op).2.1.run (m.step g op).1 ops).2.1,
          (m.step g op).2.2 :: ((m.step g op).2.1.run (m.step g op).1 ops).2.2) := fun _ => rfl
    rw [e, e, ← h1, ← h2]

theorem onlineRob_g {g g' : Globals} (hg : g.B = g'.B) (d : Driver) (id : String) (t : ℚ) :
    (d.getOnlineRob g id t).2 = (d.getOnlineRob g' id t).2 ∧
    (d.getOnlineRob g id t).1.B = g.B := by
  unfold Driver.getOnlineRob
  split_ifs
  · exact ⟨rfl, rfl⟩
  · cases d.formulas.lookup id with
    | none => exact ⟨rfl, rfl⟩
    | some T =>
      simp only
      rw [hg]
      cases Monitor.run3 ⟨g'.B, d.sem, d.ip, d.data, d.params⟩
        (Monitor.prepare d.params t t T) <;> exact ⟨rfl, rfl⟩

theorem drv_step_g {g g' : Globals} (hg : g.B = g'.B) (d : Driver) (op : DrvOp) :
    (d.step g op).2 = (d.step g' op).2 := by
  cases op with
  | onlineRob id t =>
    exact congrArg (fun p : Driver × M (List ℚ) => (p.1, p.2.map Reply.list))
      (onlineRob_g hg d id t).1
  | _ => rfl

theorem drv_step_B (g : Globals) (d : Driver) (op : DrvOp) : (d.step g op).1.B = g.B := by
  cases op with
  | onlineRob id t => exact (onlineRob_g (g := g) (g' := g) rfl d id t).2
  | _ => rfl

theorem drv_run_g {g g' : Globals} (hg : g.B = g'.B) (d : Driver) (ops : List DrvOp) :
    (d.run g ops).2 = (d.run g' ops).2 := by
  induction ops generalizing g g' d with
  | nil => rfl
  | cons op ops ih =>
    have h1 := drv_step_g hg d op
    have h2 := ih (g := (d.step g op).1) (g' := (d.step g' op).1)
      (by rw [drv_step_B, drv_step_B, hg]) (d.step g op).2.1
    have e : ∀ g : Globals, (d.run g (op :: ops)).2 =
        (((d.step g op).2.1.run (d.step g op).1 ops).2.1,
          (d.step g op).2.2 :: ((d.step g op).2.1.run (d.step g op).1 ops).2.2) := fun _ => rfl
    rw [e, e, ← h1, ← h2]

theorem world_step_B (w : World) (c : Cmd) : (w.step c).1.g.B = w.g.B := by
  cases c with
  | drv op => exact drv_step_B _ _ _
  | mon i op =>
    simp only [World.step]
    cases w.mons[i]? with
    | none => rfl
    | some m => exact step_B _ _ _
  | getMonitor id => rfl
  | copyMonitor i => simp only [World.step]; cases w.mons[i]? <;> rfl
  | assignMonitor i j =>
    simp only [World.step]; cases w.mons[i]? <;> cases w.mons[j]? <;> rfl
  | moveMonitor i => simp only [World.step]; cases w.mons[i]? <;> rfl
  | globalSemantics s =>
    simp only [World.step, Globals.setSemantics]; cases Monitor.parseSemantics s <;> rfl
  | globalInterpol s =>
    simp only [World.step, Globals.setInterpol]; cases Monitor.parseInterpol s <;> rfl

/-- A monitor inside a program behaves as it does alone. -/
theorem world_mon (w : World) (i : ℕ) (m : Monitor) (hm : w.mons[i]? = some m) (cs : List Cmd)
    (hc : Keeps i cs) :
    monReplies i (w.run cs).2 = (m.run w.g (monOps i cs)).2.2 ∧
    (w.run cs).1.mons[i]? = some (m.run w.g (monOps i cs)).2.1 := by
  induction cs generalizing w m with
  | nil => exact ⟨rfl, hm⟩
  | cons c cs ih =>
    have hc' : Keeps i cs := fun c' h => hc c' (List.mem_cons_of_mem _ h)
    obtain ⟨hk1, hk2⟩ := hc c (by simp)
    -- a call that leaves monitor `i` alone
    have skip : (w.step c).1.mons[i]? = some m → monOps i (c :: cs) = monOps i cs →
        (∀ r rs, monReplies i ((c, r) :: rs) = monReplies i rs) →
        monReplies i (w.run (c :: cs)).2 = (m.run w.g (monOps i (c :: cs))).2.2 ∧
        (w.run (c :: cs)).1.mons[i]? = some (m.run w.g (monOps i (c :: cs))).2.1 := by
      intro h1 h2 h3
      have := ih (w.step c).1 m h1 hc'
      rw [run_g (world_step_B w c)] at this
      rw [h2]
      refine ⟨?_, this.2⟩
      rw [← this.1]
      exact h3 _ _
    have hi : i < w.mons.length := by
      by_contra h
      rw [List.getElem?_eq_none (not_lt.1 h)] at hm
      simp at hm
    cases c with
    | drv op => exact skip hm rfl (fun _ _ => rfl)
    | mon j op =>
      by_cases hj : j = i
      · subst hj
        have h1 : (w.step (.mon j op)).1.mons[j]? = some (m.step w.g op).2.1 := by
          simp [World.step, hm, List.getElem?_set_self hi]
        have h2 : (w.step (.mon j op)).2 = (m.step w.g op).2.2 := by simp [World.step, hm]
        have := ih _ _ h1 hc'
        rw [run_g (g' := (m.step w.g op).1) (by rw [world_step_B, step_B])] at this
        have e : monOps j (.mon j op :: cs) = op :: monOps j cs := by simp [monOps]
        rw [e]
        refine ⟨?_, this.2⟩
        have e2 : monReplies j (w.run (.mon j op :: cs)).2 =
            (w.step (.mon j op)).2 :: monReplies j ((w.step (.mon j op)).1.run cs).2 := by
          simp [World.run, monReplies]
        rw [e2, this.1, h2]
        rfl
      · refine skip ?_ (by simp [monOps, hj]) (by simp [monReplies, hj])
        simp only [World.step]
        cases w.mons[j]? with
        | none => exact hm
        | some m' => simpa [List.getElem?_set_ne hj] using hm
    | getMonitor id =>
      refine skip ?_ rfl (fun _ _ => rfl)
      simp only [World.step]
      rw [List.getElem?_append_left hi, hm]
    | copyMonitor j =>
      refine skip ?_ rfl (fun _ _ => rfl)
      simp only [World.step]
      cases w.mons[j]? with
      | none => exact hm
      | some m' => simp only; rw [List.getElem?_append_left hi, hm]
    | assignMonitor j k =>
      refine skip ?_ rfl (fun _ _ => rfl)
      have hj : j ≠ i := fun h => hk1 k (by rw [h])
      simp only [World.step]
      cases w.mons[j]? with
      | none => exact hm
      | some m' =>
        cases w.mons[k]? with
        | none => exact hm
        | some m'' => simpa [List.getElem?_set_ne hj] using hm
    | moveMonitor j =>
      refine skip ?_ rfl (fun _ _ => rfl)
      have hj : j ≠ i := fun h => hk2 (by rw [h])
      simp only [World.step]
      cases w.mons[j]? with
      | none => exact hm
      | some m' =>
        simp only
        rw [List.getElem?_append_left (by simpa using hi), List.getElem?_set_ne hj, hm]
    | globalSemantics s =>
      refine skip ?_ rfl (fun _ _ => rfl)
      simp only [World.step]
      cases w.g.setSemantics s <;> exact hm
    | globalInterpol s =>
      refine skip ?_ rfl (fun _ _ => rfl)
      simp only [World.step]
      cases w.g.setInterpol s <;> exact hm

/-- The driver inside a program behaves as it does alone. -/
theorem world_drv (w : World) (cs : List Cmd) :
    drvReplies (w.run cs).2 = (w.drv.run w.g (drvOps cs)).2.2 ∧
    (w.run cs).1.drv = (w.drv.run w.g (drvOps cs)).2.1 := by
  induction cs generalizing w with
  | nil => exact ⟨rfl, rfl⟩
  | cons c cs ih =>
    have := ih (w.step c).1
    have skip : (w.step c).1.drv = w.drv → drvOps (c :: cs) = drvOps cs →
        (∀ r rs, drvReplies ((c, r) :: rs) = drvReplies rs) →
        drvReplies (w.run (c :: cs)).2 = (w.drv.run w.g (drvOps (c :: cs))).2.2 ∧
        (w.run (c :: cs)).1.drv = (w.drv.run w.g (drvOps (c :: cs))).2.1 := by
      intro h1 h2 h3
      rw [h1, drv_run_g (world_step_B w c)] at this
      rw [h2]
      refine ⟨?_, this.2⟩
      rw [← this.1]
      exact h3 _ _
    cases c with
    | drv op =>
      have h1 : (w.step (.drv op)).1.drv = (w.drv.step w.g op).2.1 := rfl
      rw [h1, drv_run_g (g' := (w.drv.step w.g op).1) (by rw [world_step_B, drv_step_B])] at this
      have e : drvOps (.drv op :: cs) = op :: drvOps cs := rfl
      rw [e]
      refine ⟨?_, this.2⟩
      have e2 : drvReplies (w.run (.drv op :: cs)).2 =
          (w.drv.step w.g op).2.2 :: drvReplies ((w.step (.drv op)).1.run cs).2 := rfl
      rw [e2, this.1]
      rfl
    | mon j op =>
      refine skip ?_ rfl (fun _ _ => rfl)
      simp only [World.step]; cases w.mons[j]? <;> rfl
    | getMonitor id => exact skip rfl rfl (fun _ _ => rfl)
    | copyMonitor j =>
      refine skip ?_ rfl (fun _ _ => rfl)
      simp only [World.step]; cases w.mons[j]? <;> rfl
    | assignMonitor j k =>
      refine skip ?_ rfl (fun _ _ => rfl)
      simp only [World.step]; cases w.mons[j]? <;> cases w.mons[k]? <;> rfl
    | moveMonitor j =>
      refine skip ?_ rfl (fun _ _ => rfl)
      simp only [World.step]; cases w.mons[j]? <;> rfl
    | globalSemantics s =>
      refine skip ?_ rfl (fun _ _ => rfl)
      simp only [World.step]; cases w.g.setSemantics s <;> rfl
    | globalInterpol s =>
      refine skip ?_ rfl (fun _ _ => rfl)
      simp only [World.step]; cases w.g.setInterpol s <;> rfl

end STLRom
