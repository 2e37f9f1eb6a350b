import Verif.Props.Queue
import Verif.Props.History
import Verif.Props.Formula
import Verif.Model.Dump
import Verif.Proofs.Dump

/-!
# Property C74: `dump` writes the robustness signals
-/

namespace STLRom
namespace Props
open Signal Spec

/-- The monitor of a formula with the data, parameters and settings of a driver. -/
def viewOf (d : Driver) (T : Tr) : Monitor :=
  { Monitor.init with data := d.data, params := d.params, formula := some T, sem := d.sem, ip := d.ip }

/-- The conditions of C20 and C28 for evaluating a formula of a driver at one time. -/
structure Fit (n : ℕ) (B : ℚ) (d : Driver) (T : Tr) (t : ℚ) : Prop where
  ready : Ready .LINEAR n B (viewOf d T) T t t
  atoms : AtomsOk d.data d.params t t T
  slopes : NoLongSlope .LINEAR d.data d.params t t T
  whole : Untrimmed d.params t t T

/-- A signal at one time `t` with value `v`, whatever its samples are. -/
def ShowsAt (z : Signal) (t : ℚ) (v : EReal) : Prop :=
  z.samples ≠ [] ∧ ∀ p ∈ z.samples, p.time = t ∧ er p.value = v

/-- The full claim of C74: after any calls of a driver, `dump` writes for each formula its robustness
over the driver's data under its parameters, at the time it was last evaluated at (0 at first). -/
def C74_full : Prop := ∀ (g : Globals) (d : Driver) (ops : List DrvOp) (n : ℕ),
  let w := d.run g ops
  (∀ p ∈ w.2.1.formulas, Fit n g.B w.2.1 p.2 p.2.st.start) →
    ∃ d' files, w.2.1.dump w.1 = .ok (d', files) ∧
      List.Forall₂ (fun p f => f.1 = p.1 ++ ".out" ∧
        ShowsAt f.2 p.2.st.start (rob .LINEAR w.2.1.data w.2.1.params p.2 p.2.st.start))
        w.2.1.formulas files

theorem Fit.forget {n : ℕ} {B : ℚ} {d : Driver} {T T' : Tr} {t : ℚ} (h : Fit n B d T t)
    (hf : T'.forgetB false = T.forgetB false) : Fit n B d T' t := by
  obtain ⟨⟨_, h2, h3, h4, h5, h6, h7, h8, h9, h10⟩, k1, k2, k3⟩ := h
  refine ⟨⟨rfl, h2, h3, h4, h5, ?_, ?_, h8, h9, ?_⟩, ?_, ?_, ?_⟩
  · rw [← isFormula_forget, hf, isFormula_forget]; exact h6
  · rw [← atomsWithin_forget, hf, atomsWithin_forget]; exact h7
  · rw [← reach_forget, hf, reach_forget]; exact h10
  · rw [← atomsOk_forget, hf, atomsOk_forget]; exact k1
  · rw [← noLongSlope_forget, hf, noLongSlope_forget]; exact k2
  · rw [← untrimmed_forget, hf, untrimmed_forget]; exact k3

theorem node_shows {B : ℚ} {z : Signal} {t : ℚ} {f : ℚ → EReal} (hN : Node B z t t) (hI : Is z t t f) :
    ShowsAt z t (f t) := by
  refine ⟨hN.wf.ne, fun p hp => ?_⟩
  have h1 : p.time ≤ t := by have := hN.wf.le_end p hp; rwa [hN.e] at this
  have h2 : t ≤ p.time := by
    obtain ⟨q, l, hq, hb⟩ := hN.wf.exists_cons
    rw [hN.b] at hb
    have := hN.wf.sorted
    rw [hq] at this hp
    rcases List.mem_cons.1 hp with rfl | hm
    · exact hb.ge
    · rw [← hb]; exact List.rel_of_pairwise_cons this hm
  have ht : p.time = t := le_antisymm h1 h2
  refine ⟨ht, ?_⟩
  rw [hI t le_rfl le_rfl, hN.cg.vc p hp, ht]

/-- What the calls have done to a formula: nothing, or an evaluation at a time. -/
def Seen (env : Env) (T T' : Tr) : Option ℚ → Prop
  | none => T'.forgetB false = T.forgetB false
  | some t => T'.forgetB false = T.forgetB false ∧ After env none t t T'

/-- The time of the last call for a name. -/
def lastCall (id : String) (calls : List (String × ℚ)) : Option ℚ :=
  (calls.reverse.find? fun c => c.1 = id).map Prod.snd

/-- The calls as a program. -/
def asOps (calls : List (String × ℚ)) : List DrvOp := calls.map fun c => .onlineRob c.1 c.2

theorem set_forall {R R' : String × Tr → String × Tr → Prop} {id : String} {T T' : Tr}
    (hR : ∀ p q, R p q → q.1 = p.1) (h1 : ∀ p q, R p q → p.1 ≠ id → R' p q)
    (h2 : ∀ p q, R p q → p.1 = id → q.2 = T → R' p (id, T')) : ∀ {fs0 fs : Assoc Tr},
    List.Forall₂ R fs0 fs → (fs0.map Prod.fst).Nodup → fs.lookup id = some T →
      List.Forall₂ R' fs0 (Assoc.set fs id T') := by
  intro fs0 fs h
  induction h with
  | nil => intro _ h; cases h
  | @cons p q fs0 fs hpq hr ih =>
    intro hn hl
    rw [List.map_cons, List.nodup_cons] at hn
    have hq := hR _ _ hpq
    obtain ⟨qk, qv⟩ := q
    by_cases he : qk = id
    · subst he
      simp only [List.lookup_cons, beq_self_eq_true, Option.some.injEq] at hl
      rw [Assoc.set, if_pos rfl]
      refine .cons (h2 _ _ hpq hq.symm hl) ?_
      have : ∀ p' ∈ fs0, p'.1 ≠ qk := fun p' hp' e =>
        hn.1 (by rw [← show qk = p.1 from hq, ← e]; exact List.mem_map_of_mem (f := Prod.fst) hp')
      clear ih hn
      induction hr with
      | nil => exact .nil
      | @cons a b as bs hab hr' ih' =>
        exact .cons (h1 _ _ hab (this a (by simp))) (ih' fun p' hp' => this p' (by simp [hp']))
    · rw [List.lookup_cons, show (id == qk) = false by simpa using Ne.symm he] at hl
      rw [Assoc.set, if_neg he]
      exact .cons (h1 _ _ hpq (fun e => he (by rw [← e]; exact hq))) (ih hn.2 hl)

/-- The state of a driver after calls of `get_online_rob`, the last for each name at time `tm`. -/
structure Evaluated (B : ℚ) (d0 : Driver) (tm : String → Option ℚ) (g : Globals) (d : Driver) : Prop where
  data : d.data = d0.data
  params : d.params = d0.params
  sem : d.sem = d0.sem
  ip : d.ip = d0.ip
  big : g.B = B
  trees : List.Forall₂ (fun p q => q.1 = p.1 ∧
    Seen ⟨B, d0.sem, d0.ip, d0.data, d0.params⟩ p.2 q.2 (tm p.1)) d0.formulas d.formulas
  used : (∃ p ∈ d0.formulas, tm p.1 ≠ none) → g.sem = d0.sem ∧ g.ip = d0.ip

theorem forget_of_seen {env : Env} {T T' : Tr} : ∀ {t : Option ℚ}, Seen env T T' t →
    T'.forgetB false = T.forgetB false
  | none, h => h
  | some _, h => h.1

theorem lookup_forall {R : String × Tr → String × Tr → Prop} (hR : ∀ p q, R p q → q.1 = p.1) {id : String} :
    ∀ {fs0 fs : Assoc Tr}, List.Forall₂ R fs0 fs →
      (fs.lookup id = none ∧ ∀ p ∈ fs0, p.1 ≠ id) ∨
      ∃ p ∈ fs0, ∃ q, R p q ∧ p.1 = id ∧ fs.lookup id = some q.2 := by
  intro fs0 fs h
  induction h with
  | nil => exact .inl ⟨rfl, by simp⟩
  | @cons p q fs0 fs hpq hr ih =>
    have hq := hR _ _ hpq
    obtain ⟨qk, qv⟩ := q
    by_cases he : qk = id
    · subst he
      exact .inr ⟨p, by simp, _, hpq, hq.symm, by simp⟩
    · have hl : List.lookup id ((qk, qv) :: fs) = List.lookup id fs := by
        rw [List.lookup_cons, show (id == qk) = false by simpa using Ne.symm he]
      rw [hl]
      rcases ih with ⟨h1, h2⟩ | ⟨p', h1, q', h2, h3, h4⟩
      · refine .inl ⟨h1, fun p' hp' => ?_⟩
        rcases List.mem_cons.1 hp' with rfl | hp'
        · exact fun e => he (by rw [← e]; exact hq)
        · exact h2 p' hp'
      · exact .inr ⟨p', by simp [h1], q', h2, h3, h4⟩

theorem Evaluated.step {n : ℕ} {B : ℚ} {d0 d : Driver} {tm : String → Option ℚ} {g : Globals}
    (h : Evaluated B d0 tm g d) (hn : (d0.formulas.map Prod.fst).Nodup) {id : String} {t : ℚ}
    (hfit : ∀ p ∈ d0.formulas, p.1 = id → Fit n B d0 p.2 t) :
    Evaluated B d0 (fun k => if k = id then some t else tm k) (d.getOnlineRob g id t).1
      (d.getOnlineRob g id t).2.1 := by
  have hR : ∀ p q : String × Tr, (q.1 = p.1 ∧
    Seen ⟨B, d0.sem, d0.ip, d0.data, d0.params⟩ p.2 q.2 (tm p.1)) → q.1 = p.1 := fun p q h => h.1
  rcases lookup_forall hR (id := id) h.trees with ⟨h1, h2⟩ | ⟨p, hp, q, ⟨hq1, hq2⟩, hpid, hl⟩
  · have hsame : (d.getOnlineRob g id t).1 = g ∧ (d.getOnlineRob g id t).2.1 = d := by
      unfold Driver.getOnlineRob
      split_ifs
      · exact ⟨rfl, rfl⟩
      · rw [h1]; exact ⟨rfl, rfl⟩
    rw [hsame.1, hsame.2]
    refine ⟨h.data, h.params, h.sem, h.ip, h.big, ?_, ?_⟩
    · have : ∀ p ∈ d0.formulas, (if p.1 = id then some t else tm p.1) = tm p.1 := fun p hp => if_neg (h2 p hp)
      refine (List.forall₂_iff_zip.2 ⟨h.trees.length_eq, fun {a b} hab => ?_⟩)
      have hm := (List.of_mem_zip hab).1
      rw [this a hm]
      exact (List.forall₂_iff_zip.1 h.trees).2 hab
    · rintro ⟨p, hp, he⟩
      rw [if_neg (h2 p hp)] at he
      exact h.used ⟨p, hp, he⟩
  · have hf := hfit p hp hpid
    have hf' : Fit n B d0 q.2 t := hf.forget (forget_of_seen hq2)
    obtain ⟨T', v, lo, up, r1, r2, r3⟩ := run3_after (g := ⟨B, d0.sem, d0.ip⟩) hf'.ready hf'.atoms hf'.slopes
      hf'.whole
    have hne : d.data ≠ [] := by rw [h.data]; exact hf.ready.covers.facts.1
    have r1' : Monitor.run3 ⟨g.B, d.sem, d.ip, d.data, d.params⟩ (Monitor.prepare d.params t t q.2) =
        .ok (T', v, lo, up) := by
      rw [h.big, h.sem, h.ip, h.data, h.params]; exact r1
    have hsame : (d.getOnlineRob g id t).1 = { g with sem := d.sem, ip := d.ip } ∧
        (d.getOnlineRob g id t).2.1 = { d with formulas := d.formulas.set id T' } := by
      unfold Driver.getOnlineRob
      rw [if_neg hne, hl]
      simp only [r1']
      exact ⟨trivial, trivial⟩
    rw [hsame.1, hsame.2]
    refine ⟨h.data, h.params, h.sem, h.ip, h.big, ?_, fun _ => ⟨h.sem, h.ip⟩⟩
    refine set_forall hR ?_ ?_ h.trees hn hl
    · rintro p' q' ⟨e1, e2⟩ e3
      rw [if_neg e3]
      exact ⟨e1, e2⟩
    · rintro p' q' ⟨e1, e2⟩ e3 e4
      rw [if_pos e3]
      refine ⟨e3.symm, ?_, r2⟩
      rw [r3, ← e4]
      exact forget_of_seen e2

theorem lastCall_snoc (id : String) (calls : List (String × ℚ)) (c : String × ℚ) :
    lastCall id (calls ++ [c]) = if id = c.1 then some c.2 else lastCall id calls := by
  unfold lastCall
  rw [List.reverse_append, List.reverse_singleton, List.singleton_append, List.find?_cons]
  by_cases h : id = c.1
  · rw [if_pos h]; simp [h]
  · rw [if_neg h, show decide (c.1 = id) = false by simpa using Ne.symm h]

theorem run_append (g : Globals) (d : Driver) (ops : List DrvOp) (op : DrvOp) :
    (d.run g (ops ++ [op])).1 = (((d.run g ops).2.1).step (d.run g ops).1 op).1 ∧
    (d.run g (ops ++ [op])).2.1 = (((d.run g ops).2.1).step (d.run g ops).1 op).2.1 := by
  induction ops generalizing g d with
  | nil => exact ⟨rfl, rfl⟩
  | cons o ops ih =>
    simp only [List.cons_append, Driver.run]
    exact ih _ _

theorem evaluated_run {n : ℕ} {g : Globals} {d0 : Driver} (hn : (d0.formulas.map Prod.fst).Nodup)
    (calls : List (String × ℚ))
    (hfit : ∀ c ∈ calls, ∀ p ∈ d0.formulas, p.1 = c.1 → Fit n g.B d0 p.2 c.2) :
    Evaluated g.B d0 (fun k => lastCall k calls) (d0.run g (asOps calls)).1 (d0.run g (asOps calls)).2.1 := by
  induction calls using List.reverseRecOn with
  | nil =>
    refine ⟨rfl, rfl, rfl, rfl, rfl, ?_, ?_⟩
    · show List.Forall₂ _ d0.formulas d0.formulas
      exact List.forall₂_same.2 fun p _ => ⟨rfl, rfl⟩
    · rintro ⟨p, _, h⟩; exact absurd rfl h
  | append_singleton calls c ih =>
    have h := (ih fun c hc => hfit c (by simp [hc])).step (n := n) hn (id := c.1) (t := c.2) (hfit c (by simp))
    have e := run_append g d0 (asOps calls) (.onlineRob c.1 c.2)
    rw [asOps, List.map_append, List.map_singleton, ← asOps, e.1, e.2]
    simp only [lastCall_snoc]
    exact h

theorem dumpLoop_shows {n : ℕ} {B : ℚ} {d0 : Driver} {g : Globals} {tm : String → Option ℚ} (hB : g.B = B)
    (hg : g.sem = d0.sem ∧ g.ip = d0.ip) : ∀ {fs0 fs : Assoc Tr},
    List.Forall₂ (fun p q => q.1 = p.1 ∧
      Seen ⟨B, d0.sem, d0.ip, d0.data, d0.params⟩ p.2 q.2 (tm p.1)) fs0 fs →
    (∀ p ∈ fs0, ∃ t, tm p.1 = some t ∧ Fit n B d0 p.2 t) →
    ∃ fs' files, Driver.dumpLoop g d0.data d0.params fs = .ok (fs', files) ∧
      List.Forall₂ (fun p f => f.1 = p.1 ++ ".out" ∧ ∃ t, tm p.1 = some t ∧
        ShowsAt f.2 t (rob .LINEAR d0.data d0.params p.2 t)) fs0 files := by
  intro fs0 fs h
  induction h with
  | nil => exact fun _ => ⟨[], [], rfl, .nil⟩
  | @cons p q fs0 fs hpq hr ih =>
    intro hf
    obtain ⟨t, ht, hfit⟩ := hf p (by simp)
    obtain ⟨e1, e2⟩ := hpq
    rw [ht] at e2
    obtain ⟨e2, e3⟩ := e2
    obtain ⟨T'', v, k1, k2, k3⟩ := run3_second (g := ⟨B, d0.sem, d0.ip⟩) hfit.ready hfit.slopes hfit.whole e3 e2
    obtain ⟨fs', files, l1, l2⟩ := ih fun p hp => hf p (by simp [hp])
    refine ⟨(q.1, T'') :: fs', (q.1 ++ ".out", T''.st.z) :: files, ?_, .cons ⟨?_, t, ht, ?_⟩ l2⟩
    · obtain ⟨qk, qv⟩ := q
      rw [Driver.dumpLoop, hB, hg.1, hg.2]
      have k1' : (qv.setHorizon d0.params qv.st.start qv.st.stop).computeRob
        ⟨B, d0.sem, d0.ip, d0.data, d0.params⟩ = .ok (T'', v) := k1
      simp only [k1', l1, bind, Except.bind]
    · rw [e1]
    · exact node_shows k2 k3

/-- C74 for a driver whose every formula has been evaluated by `get_online_rob` under the conditions
of C20 (`Fit`), with no other call in between: `dump` returns, and the file of each formula holds its
robustness at the time of its last evaluation.  Missing from the full claim: formulas never evaluated
(`C74_undefined`), parameters changed since (`C74_false`), formulas outside `Fit`. -/
theorem C74_partial (g : Globals) (d : Driver) (n : ℕ) (calls : List (String × ℚ))
    (hn : (d.formulas.map Prod.fst).Nodup)
    (hall : ∀ p ∈ d.formulas, p.1 ∈ calls.map Prod.fst)
    (hfit : ∀ c ∈ calls, ∀ p ∈ d.formulas, p.1 = c.1 → Fit n g.B d p.2 c.2) :
    ∃ d' files, (d.run g (asOps calls)).2.1.dump (d.run g (asOps calls)).1 = .ok (d', files) ∧
      List.Forall₂ (fun p f => f.1 = p.1 ++ ".out" ∧ ∃ t, lastCall p.1 calls = some t ∧
        ShowsAt f.2 t (rob .LINEAR d.data d.params p.2 t)) d.formulas files := by
  have h := evaluated_run hn calls hfit
  have hlast : ∀ p ∈ d.formulas, ∃ t, lastCall p.1 calls = some t ∧ Fit n g.B d p.2 t := by
    intro p hp
    obtain ⟨c, hc, hcp⟩ := List.mem_map.1 (hall p hp)
    have : (calls.reverse.find? fun c => c.1 = p.1).isSome :=
      List.find?_isSome.2 ⟨c, List.mem_reverse.2 hc, by simpa using hcp⟩
    obtain ⟨c', hc'⟩ := Option.isSome_iff_exists.1 this
    refine ⟨c'.2, by rw [lastCall, hc']; rfl, ?_⟩
    have := List.find?_some hc'
    exact hfit c' (List.mem_reverse.1 (List.mem_of_find?_eq_some hc')) p hp (by simpa using this : c'.1 = p.1).symm
  unfold Driver.dump
  rw [h.data, h.params]
  cases hfs : d.formulas with
  | nil =>
    have := h.trees
    rw [hfs, List.forall₂_nil_left_iff] at this
    rw [this]
    exact ⟨_, [], rfl, .nil⟩
  | cons p0 fs0 =>
    obtain ⟨t0, ht0, _⟩ := hlast p0 (by rw [hfs]; simp)
    obtain ⟨fs', files, k1, k2⟩ := dumpLoop_shows (n := n) (d0 := d) (tm := fun k => lastCall k calls) h.big
      (h.used ⟨p0, by rw [hfs]; simp, by rw [ht0]; simp⟩) h.trees hlast
    rw [k1]
    rw [hfs] at k2
    exact ⟨_, files, rfl, k2⟩

/-- `dump` never returns when a formula of the driver has never been evaluated, as after parsing:
the data pointer is set for the root only. -/
theorem C74_undefined (g : Globals) (d : Driver) (p : String × Tr) (hp : p ∈ d.formulas) (hT : Unbound p.2) :
    ∀ r, d.dump g ≠ .ok r := by
  have key : ∀ fs : Assoc Tr, p ∈ fs → ∀ r, Driver.dumpLoop g d.data d.params fs ≠ .ok r := by
    intro fs
    induction fs with
    | nil => intro h; cases h
    | cons q fs ih =>
      intro h r hr
      obtain ⟨qk, qv⟩ := q
      simp only [Driver.dumpLoop, bind_eq_ok, Prod.exists] at hr
      obtain ⟨T', v, h1, fs', files, h2, _⟩ := hr
      rcases List.mem_cons.1 h with rfl | h
      · rw [(hT.setHorizon d.params _ _).undefined] at h1
        cases h1
      · exact ih h _ h2
  intro r hr
  simp only [Driver.dump, bind_eq_ok, Prod.exists] at hr
  obtain ⟨fs, files, h1, _⟩ := hr
  exact key _ hp _ h1

/-- A driver with the formula `x > p`, where `p` is 0, and two rows. -/
def dumpD : Driver := { Driver.init with
  smap := [("x", 1)]
  params := [("p", 0)]
  formulas := [("phi", .atom .init .greater sx (.const .init "p" 0 none))]
  data := [[0, 5, 0], [1, 4, 0]] }

/-- A driver as after parsing, with `exF` and the data of `exD`. -/
def freshD : Driver := { Driver.init with
  smap := [("x", 1), ("y", 2)]
  formulas := [("phi", exF)]
  data := exD }

theorem fit_freshD : Fit 2 Globals.init.B freshD exF 0 := by
  have h := exM_ready
  exact ⟨⟨rfl, rfl, rfl, rfl, h.rows, h.shape, h.within, le_rfl, le_rfl, h.covers⟩, exM_ok, exM_slope,
    exM_trim⟩

/-- `dump` on the driver as parsed has undefined behaviour. -/
theorem C74_false : ¬ C74_full := by
  intro h
  obtain ⟨d', files, h1, _⟩ := h .init freshD [] 2 (by
    intro p hp
    obtain rfl := List.mem_singleton.1 hp
    exact fit_freshD)
  refine C74_undefined .init freshD ("phi", exF) (List.mem_singleton.2 rfl) ?_ _ h1
  refine ⟨⟨⟨rfl, 0, rfl⟩, rfl⟩, ⟨rfl, 1, rfl⟩, rfl⟩

/-- After a parameter has changed `dump` writes the old robustness: `x > p` is evaluated with `p = 0`,
then `p` is set to 3; the file says 5 and `get_online_rob` 2. -/
theorem C74_stale_false :
    let w := dumpD.run .init [.onlineRob "phi" 0, .setParam "p" 3]
    (w.2.1.dump w.1).map (fun r => r.2.map fun f => (f.1, f.2.samples.map Sample.value)) =
        .ok [("phi.out", [5])] ∧
      (w.2.1.getOnlineRob w.1 "phi" 0).2.2 = .ok [2, 2, 2] := by decide +kernel

example : ∃ d' files, (freshD.run .init (asOps [("phi", 0)])).2.1.dump
      (freshD.run .init (asOps [("phi", 0)])).1 = .ok (d', files) ∧
    List.Forall₂ (fun p f => f.1 = p.1 ++ ".out" ∧ ∃ t, lastCall p.1 [("phi", 0)] = some t ∧
        ShowsAt f.2 t (rob .LINEAR freshD.data freshD.params p.2 t)) freshD.formulas files := by
  refine C74_partial .init freshD 2 [("phi", 0)] (by decide) ?_ ?_
  · intro p hp
    obtain rfl := List.mem_singleton.1 hp
    exact List.mem_singleton.2 rfl
  · intro c hc p hp _
    obtain rfl := List.mem_singleton.1 hc
    obtain rfl := List.mem_singleton.1 hp
    exact fit_freshD

/-- The file written then. -/
example : let w := freshD.run .init (asOps [("phi", 0)])
    (w.2.1.dump w.1).map (fun r => r.2.map fun f => (f.1, f.2.samples.map fun p => (p.time, p.value))) =
      .ok [("phi.out", [(0, 3)])] := by decide +kernel

end Props
end STLRom
