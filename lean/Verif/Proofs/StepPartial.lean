import Verif.Proofs.StepEv
import Verif.Proofs.StepRob
import Verif.Proofs.PartialRun

/-!
# Bounds on an incomplete trace with PREVIOUS interpolation
-/

namespace STLRom
open Signal Spec

/-- As `SNode.settled`, at any time. -/
theorem SNode.settled_at {B : ℚ} {z : Signal} {S E k : ℚ} {f : ℚ → EReal} (h : SNode B z S E) {u : ℚ}
    (hu : S ≤ u) (hf : Is z u E f) (hk : k ≤ E) (hs : Settles f u k) (hSk : u < k) :
    z.v (mi k) = z.v (pl k) := by
  obtain ⟨r, r1, r2, r3⟩ := hs hSk
  obtain ⟨q, q1, q2, q3⟩ := h.left (hu.trans r1) r2 hk
  rw [← q3 q le_rfl q2]
  apply er_inj
  rw [← hf q (r1.trans q1) (q2.le.trans hk), ← hf k hSk.le hk]
  exact r3 q q1 q2.le

/-- What is fixed while a formula is evaluated on incomplete data with PREVIOUS interpolation. -/
structure FeedP (env : Env) (n : ℕ) : Prop where
  prev : Prev env n
  sem : env.sem = .SPACE
  ne : env.data ≠ []
  big : 0 ≤ env.B

section
variable {env : Env} {n : ℕ}

/-- A formula tree after `compute_robustness` on incomplete data. -/
def SPAft (env : Env) : Option ℚ → ℚ → ℚ → Tr → Prop
  | cut, S, E, .atom s k l r => S ≤ lastTime env.data →
      l.st.z.endTime = min E (lastTime env.data) ∧
      ∃ x, SNode env.B x S (min E (lastTime env.data)) ∧ Flat x.samples ∧
        Is x S (min E (lastTime env.data)) (rob .PREVIOUS env.data env.params (.atom s k l r)) ∧
        Cut x s.z (min E (lastTime env.data)) cut
  | _, S, E, .not _ c => SPAft env none S E c
  | _, S, E, .and _ l r | _, S, E, .or _ l r | _, S, E, .implies _ l r =>
      SPAft env none S E l ∧ SPAft env none S E r
  | _, S, E, .ev _ I c =>
      let a := bound env.params I.beginStr I.begin
      let b := bound env.params I.stopStr I.stop
      SPAft env (some (min (min (E + b) (lastTime env.data) - a) E - b)) (S + a) (E + b) c
  | _, S, E, .alw _ I c =>
      SPAft env none (S + bound env.params I.beginStr I.begin)
        (E + bound env.params I.stopStr I.stop) c
  | _, _, _, _ => False

theorem SPAft.cut {S E : ℚ} {c c' : Option ℚ} {T : Tr} (h : SPAft env c S E T) (hn : ¬ IsAtom T) :
    SPAft env c' S E T := by
  cases T with
  | atom => exact absurd trivial hn
  | _ => exact h

theorem SPAft.setZ {S E : ℚ} {c : Option ℚ} {T : Tr} {z : Signal} (h : SPAft env c S E T) (hn : ¬ IsAtom T) :
    SPAft env c S E (Tr.setZ z T) := by
  cases T with
  | atom => exact absurd trivial hn
  | _ => exact h

/-- An atom in its first pass, if the rows have reached it. -/
theorem atom_step_first (hL : FeedP env n) {S E : ℚ} (h0 : 0 ≤ S) (hSE : S ≤ E)
    (hfirst : ∃ row t, env.data.head? = some row ∧ row.head? = some t ∧ t ≤ S) {s : St} {k : Cmp} {l r : Tr}
    (hF : IsFormula n env.params (.atom s k l r)) (hf : Fresh env.params S E (.atom s k l r))
    (hk : AtomsStepTo env.data env.params S E (.atom s k l r))
    (hB : AtomsWithinTo .PREVIOUS env.B env.data env.params S E (.atom s k l r)) {T' : Tr} {v : ℚ}
    (hrun : Tr.computeRob env (.atom s k l r) = .ok (T', v)) (hSd : S ≤ lastTime env.data) :
    SNode env.B T'.st.z S (min E (lastTime env.data)) ∧ Flat T'.st.z.samples ∧
      Is T'.st.z S (min E (lastTime env.data)) (rob .PREVIOUS env.data env.params (.atom s k l r)) := by
  have hD := hL.prev.shape
  set d := lastTime env.data with hd
  have hSe : S ≤ min E d := le_min hSE hSd
  have hT : IsTerm l ∧ IsTerm r := ⟨hF.1.term, hF.2.term⟩
  have hfc : Fresh env.params S (min E d) (clip (min E d) (.atom s k l r)) :=
    ⟨⟨hf.1.1, rfl, hf.1.2.2⟩, fresh_clip hT.1 hf.2.1, fresh_clip hT.2 hf.2.2⟩
  have hFc : IsFormula n env.params (clip (min E d) (.atom s k l r)) := by
    rw [← isFormula_forget, clip_forget, isFormula_forget]; exact hF
  have hkc : StepOk env.data env.params S (min E d) (clip (min E d) (.atom s k l r)) := by
    rw [← stepOk_forget, clip_forget, stepOk_forget]
    refine hk.imp id fun h => ?_
    have hrow : RowAt env.data d := rowAt_last hL.ne hD
    rcases h with h | h | h
    · exact Or.inl (le_antisymm hSe (h ▸ min_le_left _ _))
    · obtain ⟨row, hr, ht⟩ := h
      have := rowTime_le_last hL.ne hD row hr
      rw [rowTime_of_head ht, ← hd] at this
      rw [min_eq_left this]
      exact Or.inr ⟨row, hr, ht⟩
    · rw [min_eq_right h]
      exact Or.inr hrow
  have hBc : AtomsWithin .PREVIOUS env.B env.data env.params S (min E d) (clip (min E d) (.atom s k l r)) := by
    rw [← atomsWithin_forget, clip_forget, atomsWithin_forget]
    intro t h1 h2
    exact hB t h1 (h2.trans (min_le_left _ _)) (h2.trans (min_le_right _ _))
  have hcov : Covers env.data S (min E d) := by
    refine ⟨hfirst, ?_⟩
    obtain ⟨row, e1, e2⟩ := lastTime_eq hL.ne hD
    exact ⟨row, _, e1, e2, min_le_right _ _⟩
  have hrun' := clip_rob (e := min E d) (rowTime_le_last hL.ne hD) (h0.trans hSd) (.atom s k l r)
    (Or.inr trivial) (by intro s' k' l' r' h; cases h; exact hT)
    ⟨stops_of_fresh hT.1 hf.2.1, stops_of_fresh hT.2 hf.2.2⟩
  rw [hrun] at hrun'
  obtain ⟨T'', v', a1, a2, a3⟩ := atom_prev_flat hL.prev hL.sem hcov (h0.trans hSe) hSe hFc hfc hkc hBc
  rw [show Tr.atom { s with stop := min E d } k (clip (min E d) l) (clip (min E d) r)
    = clip (min E d) (.atom s k l r) from rfl] at a1 a2
  rw [hrun'] at a1
  obtain ⟨rfl, rfl⟩ := Prod.mk.inj (Except.ok.inj a1)
  have h1 := a2.node
  have h2 := a2.is
  rw [clip_z] at h1 h2 a3
  refine ⟨h1, a3, ?_⟩
  rwa [← rob_forget, clip_forget, rob_forget] at h2

/-- The state after the first pass. -/
theorem step_first (hL : FeedP env n) (T : Tr) : ∀ {S E : ℚ}, 0 ≤ S → S ≤ E →
    (∃ row t, env.data.head? = some row ∧ row.head? = some t ∧ t ≤ S) → IsFormula n env.params T →
    Fresh env.params S E T → AtomsStepTo env.data env.params S E T →
    AtomsWithinTo .PREVIOUS env.B env.data env.params S E T → ∀ T' v, Tr.computeRob env T = .ok (T', v) →
    SPAft env none S E T' ∧ (IsAtom T' → IsAtom T) := by
  have hD := hL.prev.shape
  induction T with
  | atom s k l r =>
    intro S E h0 hSE hfirst hF hf hk hB T' v hrun
    refine ⟨?_, fun _ => trivial⟩
    have key := atom_step_first hL h0 hSE hfirst hF hf hk hB hrun
    have hro : rob .PREVIOUS env.data env.params T' = rob .PREVIOUS env.data env.params (.atom s k l r) := by
      rw [← rob_forget, Tr.forgetB_computeRob _ hrun, rob_forget]
    rw [← hro] at key
    simp only [Tr.computeRob] at hrun
    obtain ⟨⟨l', _⟩, _, hx⟩ := bind_eq_ok.1 hrun
    obtain ⟨⟨r', _⟩, _, hx⟩ := bind_eq_ok.1 hx
    obtain ⟨z, hz, hx⟩ := bind_eq_ok.1 hx
    obtain ⟨p, _, hx⟩ := bind_eq_ok.1 hx
    obtain ⟨rfl, _⟩ := Prod.mk.inj (Except.ok.inj hx)
    intro hd
    obtain ⟨k1, k2, k3⟩ := key hd
    refine ⟨?_, z, k1, k2, k3, rfl⟩
    unfold Tr.atomRob at hz
    rw [hL.sem] at hz
    obtain ⟨y, _, e3⟩ := bind_eq_ok.1 hz
    simp only [Except.ok.injEq] at e3
    rw [← k1.e]
    show l'.st.z.endTime = z.endTime
    rw [← e3]
  | not s c ih =>
    intro S E h0 hSE hfirst hF hf hk hB T' v hrun
    simp only [Tr.computeRob] at hrun
    obtain ⟨⟨c', w⟩, hc, hx⟩ := bind_eq_ok.1 hrun
    obtain ⟨p, _, hx⟩ := bind_eq_ok.1 hx
    obtain ⟨rfl, _⟩ := Prod.mk.inj (Except.ok.inj hx)
    exact ⟨(ih h0 hSE hfirst hF hf.2 hk hB c' w hc).1, fun h => h.elim⟩
  | and s l r ih1 ih2 | or s l r ih1 ih2 | implies s l r ih1 ih2 =>
    intro S E h0 hSE hfirst hF hf hk hB T' v hrun
    simp only [Tr.computeRob] at hrun
    obtain ⟨⟨l', w1⟩, h1, hx⟩ := bind_eq_ok.1 hrun
    obtain ⟨⟨r', w2⟩, h2, hx⟩ := bind_eq_ok.1 hx
    obtain ⟨z, _, hx⟩ := bind_eq_ok.1 hx
    obtain ⟨p, _, hx⟩ := bind_eq_ok.1 hx
    obtain ⟨rfl, _⟩ := Prod.mk.inj (Except.ok.inj hx)
    exact ⟨⟨(ih1 h0 hSE hfirst hF.1 hf.2.1 hk.1 hB.1 l' w1 h1).1,
      (ih2 h0 hSE hfirst hF.2 hf.2.2 hk.2 hB.2 r' w2 h2).1⟩, fun h => h.elim⟩
  | ev s I c ih =>
    intro S E h0 hSE hfirst hF hf hk hB T' v hrun
    obtain ⟨ha, hab, hFc⟩ := hF
    set a := bound env.params I.beginStr I.begin with hadef
    set b := bound env.params I.stopStr I.stop with hbdef
    set d := lastTime env.data with hd
    simp only [Tr.computeRob, ivA_eq, ivB_eq, ← hadef, ← hbdef] at hrun
    obtain ⟨⟨c', w⟩, hc, hx⟩ := bind_eq_ok.1 hrun
    obtain ⟨⟨z, zc⟩, hz, hx⟩ := bind_eq_ok.1 hx
    obtain ⟨p, _, hx⟩ := bind_eq_ok.1 hx
    obtain ⟨rfl, _⟩ := Prod.mk.inj (Except.ok.inj hx)
    obtain ⟨row, t, f1, f2, f3⟩ := hfirst
    obtain ⟨k1, k3⟩ := ih (S := S + a) (E := E + b) (by linarith) (by linarith)
      ⟨row, t, f1, f2, by linarith⟩ hFc hf.2 hk hB c' w hc
    refine ⟨?_, fun h => h.elim⟩
    show SPAft env (some (min (min (E + b) d - a) E - b)) (S + a) (E + b) (Tr.setZ zc c')
    by_cases hat : IsAtom c'
    · cases c' with
      | atom cs k l r =>
        intro hSd
        obtain ⟨g1, x, g2, g3, g4, g5⟩ := k1 hSd
        obtain rfl : cs.z = x := g5
        unfold Tr.evRob at hz
        obtain ⟨z1, q1, hz⟩ := bind_eq_ok.1 hz
        obtain ⟨zc', q2, hz⟩ := bind_eq_ok.1 hz
        obtain ⟨z2, q3, hz⟩ := bind_eq_ok.1 hz
        obtain ⟨_, rfl⟩ := Prod.mk.inj (Except.ok.inj hz)
        obtain ⟨z1', q4, _, _, q5⟩ := computeTimedEventually_total env.B s.z (b := b) (x := cs.z) (by
          obtain ⟨q, l, e1, e2⟩ := g2.wf.exists_cons
          exact ⟨q, l, e1, e2⟩) ha
        rw [show (Tr.atom cs k l r).st.z = cs.z from rfl] at q1 q2
        rw [q4] at q1
        obtain rfl := Except.ok.inj q1
        rw [q5, g2.e, hf.1.2.1] at q2
        exact ⟨g1, cs.z, g2, g3, g4, q2⟩
      | _ => exact hat.elim
    · exact (k1.cut hat).setZ hat
  | alw s I c ih =>
    intro S E h0 hSE hfirst hF hf hk hB T' v hrun
    obtain ⟨ha, hab, hFc⟩ := hF
    set a := bound env.params I.beginStr I.begin with hadef
    set b := bound env.params I.stopStr I.stop with hbdef
    simp only [Tr.computeRob] at hrun
    obtain ⟨⟨c', w⟩, hc, hx⟩ := bind_eq_ok.1 hrun
    obtain ⟨z, hz, hx⟩ := bind_eq_ok.1 hx
    obtain ⟨p, _, hx⟩ := bind_eq_ok.1 hx
    obtain ⟨rfl, _⟩ := Prod.mk.inj (Except.ok.inj hx)
    obtain ⟨row, t, f1, f2, f3⟩ := hfirst
    exact ⟨(ih (S := S + a) (E := E + b) (by linarith) (by linarith)
      ⟨row, t, f1, f2, by linarith⟩ hFc hf.2 hk hB c' w hc).1, fun h => h.elim⟩
  | _ => intro _ _ _ _ _ hF; exact hF.elim

/-- The outcome of one of the two bound computations. -/
structure SBOut (env : Env) (p : Bool) (S E : ℚ) (T T' : Tr) (v : ℚ) : Prop where
  node : SNode env.B (pick p T'.st) S (known (lastTime env.data) env.params p S E T)
  is : Is (pick p T'.st) S (known (lastTime env.data) env.params p S E T)
    (robBound .PREVIOUS env.B env.data env.params p S E T)
  val : v = (pick p T'.st).v (pl S)

theorem comb_time_mem {g : Sample → Sample → Sample} (hg : ∀ p q, (g p q).time = p.time) :
    ∀ (l r : List Sample) (x : Sample), x ∈ comb g l r → ∃ p ∈ l, x.time = p.time
  | [], _, x, h => by simp [comb] at h
  | _ :: _, [], x, h => by simp [comb] at h
  | a :: l, b :: r, x, h => by
    rcases List.mem_cons.1 h with rfl | h
    · exact ⟨a, by simp, hg a b⟩
    · obtain ⟨p, hp, e⟩ := comb_time_mem hg l r x h
      exact ⟨p, by simp [hp], e⟩

/-- An atom that the rows have reached. -/
theorem atom_step_reached (hL : FeedP env n) {p : Bool} {S K : ℚ} {s : St} {k : Cmp} {l r : Tr}
    (hSK : S ≤ K) (hs : s.start = S) (hset : Settled n env.data (.atom s k l r))
    (hl : l.st.z.endTime = K) (hz1 : s.z.samples ≠ []) (hz2 : s.z.endTime = K) :
    ∃ T' q, bnd env p (.atom s k l r) = .ok (T', q.value) ∧ pick p T'.st = s.z ∧ s.z.front = .ok q := by
  obtain ⟨_, h1, h2⟩ := hset
  obtain ⟨l', v1, a1, a2, a3, a4⟩ := term_rerun (env := env) hL.prev.shape h1
  obtain ⟨r', v2, b1, b2, b3, b4⟩ := term_rerun (env := env) hL.prev.shape h2
  have hz : Tr.atomRob env k s.z l'.st.z r'.st.z = .ok s.z := by
    unfold Tr.atomRob
    rw [atomLoop_eq, appendSamples_skip env.ip hz1, hL.sem]
    · show Except.ok _ = _
      rw [a4, hl, ← hz2]
    · intro p hp
      obtain ⟨q, hq, e⟩ := comb_time_mem (atomS_time k) _ _ p hp
      rw [e, hz2, ← hl, ← a4]
      exact a2.le q hq
  obtain ⟨q, hq⟩ := front_ok hz1
  have hrun : Tr.computeRob env (.atom s k l r) = .ok (.atom s k l' r', q.value) := by
    simp only [Tr.computeRob, a1, b1, bind, Except.bind, hz, hq]
  cases p
  · refine ⟨.atom { s with zup := s.z } k l' r', q, ?_, rfl, hq⟩
    have hd : Tr.defaultUp env s = .ok s.z := by
      unfold Tr.defaultUp
      rw [if_neg]
      rw [hz2, hs]
      exact not_lt.2 hSK
    simp only [bnd, Bool.false_eq_true, if_false, Tr.computeUp, hrun, bind, Except.bind, Tr.st, hd, hq, Tr.setSt]
  · refine ⟨.atom { s with zlow := s.z } k l' r', q, ?_, rfl, hq⟩
    have hd : Tr.defaultLow env s = .ok s.z := by
      unfold Tr.defaultLow
      rw [if_neg]
      rw [hz2, hs]
      exact not_lt.2 hSK
    simp only [bnd, if_true, Tr.computeLow, hrun, bind, Except.bind, Tr.st, hd, hq, Tr.setSt]

/-- The part of `ev` after its operand. -/
theorem ev_step_part (hB : 0 ≤ env.B) {p : Bool} {s : St} {a b S E u K : ℚ} {z : Signal} {f : ℚ → EReal}
    (hs : s.start = S ∧ s.stop = E) (h0 : 0 ≤ S) (hSE : S ≤ E) (ha : 0 ≤ a) (hab : a ≤ b)
    (hz : SNode env.B z u K) (hu : u ≤ S + a) (hK : S + a ≤ K)
    (hf : Is z (S + a) K f)
    (hk : p = true → a < b → u + (b - a) < K → K ≤ E + a → z.v (mi K) = z.v (pl K))
    (hedge : K < S + b → K < S + b - 1 / 10 ^ 14) :
    ∃ w v, (if p then Tr.evLow env s a b z else Tr.evUp env s a b z) = .ok (w, v) ∧
      SNode env.B w S (if p then min E (K - a) else max S (min E (K - b))) ∧
      Is w S (if p then min E (K - a) else max S (min E (K - b)))
        (fun t => if p = false ∧ K < S + b then er env.B else
          ⨆ r ∈ Set.Icc (t + a) (min (t + b) K), f r) ∧
      v = w.v (pl S) := by
  cases p
  · simp only [Bool.false_eq_true, if_false, true_and]
    obtain ⟨w, h1, h2, h3⟩ := hz.ev_pre (old := s.zup) hu hf ha hab
    unfold Tr.evUp
    rw [if_neg (by rw [hz.e]; linarith)]
    simp only [h1, bind, Except.bind, h2, hs.1, hs.2]
    rw [show K - a - b + a = K - b by ring]
    by_cases hKb : K < S + b
    · have := hedge hKb
      have hr : Signal.resize w S (min (K - b) E) 0 = .ok ⟨[], 0, 0⟩ := by
        unfold Signal.resize
        rw [if_pos]
        rw [tol_val]
        exact lt_of_le_of_lt (min_le_left _ _) (by linarith)
      rw [max_eq_left ((min_le_right _ _).trans (by linarith : K - b ≤ S))]
      obtain ⟨n1, n2⟩ := snode_point (B := env.B) (S := S) (c := env.B) (by linarith) le_rfl
      refine ⟨⟨[⟨S, env.B, 0⟩], S, S⟩, env.B, ?_, n1, ?_, ?_⟩
      · simp only [hr, Tr.appendIfEmpty, if_true, append_empty, Signal.front]
      · simp only [if_pos hKb]; exact n2
      · exact er_inj (n2 S le_rfl le_rfl)
    · push Not at hKb
      obtain ⟨w', r1, r2, r3⟩ := h3 (min (K - b) E) (le_min (by linarith) hSE)
        ((min_le_left _ _).trans (by linarith))
        (fun e1 _ => Or.inl (lt_of_le_of_lt (min_le_left _ _) (by linarith)))
      obtain ⟨q, hq, hq'⟩ := r2.front
      rw [min_comm E, max_eq_right (le_min (by linarith) hSE)]
      refine ⟨w', q.value, ?_, r2, ?_, hq'⟩
      · simp only [r1, appendIfEmpty_ne r2.wf.ne, hq]
      · simp only [if_neg (not_lt.2 hKb)]; exact r3
  · simp only [if_true, Bool.true_eq_false, false_and, if_false]
    obtain ⟨w, h1, h2, h3⟩ := hz.ev_pre (old := s.zlow) hu hf ha hab
    unfold Tr.evLow
    rw [if_neg (by rw [hz.e]; linarith)]
    simp only [h1, bind, Except.bind, h2, hs.1, hs.2]
    obtain ⟨w', r1, r2, r3⟩ := h3 (min (K - a) E) (le_min (by linarith) hSE) (min_le_left _ _)
      (fun e1 e2 => by
        rcases lt_or_ge E (K - a) with h | h
        · exact Or.inl (lt_of_le_of_lt (min_le_right _ _) h)
        · exact Or.inr (hk rfl e1 e2 (by linarith)))
    obtain ⟨q, hq, hq'⟩ := r2.front
    rw [min_comm E, max_eq_right (le_min (by linarith) hSE)]
    refine ⟨w', q.value, ?_, r2, r3, hq'⟩
    simp only [r1, appendIfEmpty_ne r2.wf.ne, hq]

/-- The part of `alw` after its operand. -/
theorem alw_step_part (hB : 0 ≤ env.B) {p : Bool} {s : St} {a b S E K : ℚ} {z : Signal} {f : ℚ → EReal}
    (hs : s.start = S ∧ s.stop = E) (h0 : 0 ≤ S) (hSE : S ≤ E) (ha : 0 ≤ a) (hab : a ≤ b)
    (hz : SNode env.B z (S + a) K) (hf : Is z (S + a) K f)
    (hk : p = false → a < b → S + b < K → K ≤ E + a → z.v (mi K) = z.v (pl K))
    (hedge : K < S + b → K < S + b - 1 / 10 ^ 14) :
    ∃ w v, (if p then Tr.alwLow env s a b z else Tr.alwUp env s a b z) = .ok (w, v) ∧
      SNode env.B w S (if p then max S (min E (K - b)) else min E (K - a)) ∧
      Is w S (if p then max S (min E (K - b)) else min E (K - a))
        (fun t => if p = true ∧ K < S + b then er (-env.B) else
          ⨅ r ∈ Set.Icc (t + a) (min (t + b) K), f r) ∧
      v = w.v (pl S) := by
  have hK := hz.le
  cases p
  · simp only [Bool.false_eq_true, if_false, false_and]
    obtain ⟨w, h1, h2, h3⟩ := hz.alw_pre (old := s.zup) le_rfl hf ha hab
    unfold Tr.alwUp
    rw [if_neg (by rw [hz.e]; linarith)]
    simp only [h1, bind, Except.bind, h2, hs.1, hs.2]
    obtain ⟨w', r1, r2, r3⟩ := h3 (min (K - a) E) (le_min (by linarith) hSE) (min_le_left _ _)
      (fun e1 e2 => by
        rcases lt_or_ge E (K - a) with h | h
        · exact Or.inl (lt_of_le_of_lt (min_le_right _ _) h)
        · exact Or.inr (hk rfl e1 (by linarith) (by linarith)))
    obtain ⟨q, hq, hq'⟩ := r2.front
    rw [min_comm E, max_eq_right (le_min (by linarith) hSE)]
    refine ⟨w', q.value, ?_, r2, r3, hq'⟩
    simp only [r1, appendIfEmpty_ne r2.wf.ne, hq]
  · simp only [if_true, true_and]
    obtain ⟨w, h1, h2, h3⟩ := hz.alw_pre (old := s.zlow) le_rfl hf ha hab
    unfold Tr.alwLow
    rw [if_neg (by rw [hz.e]; linarith)]
    simp only [h1, bind, Except.bind, h2, hs.1, hs.2]
    rw [show K - a - b + a = K - b by ring]
    by_cases hKb : K < S + b
    · have := hedge hKb
      have hr : Signal.resize w S (min (K - b) E) 0 = .ok ⟨[], 0, 0⟩ := by
        unfold Signal.resize
        rw [if_pos]
        rw [tol_val]
        exact lt_of_le_of_lt (min_le_left _ _) (by linarith)
      rw [max_eq_left ((min_le_right _ _).trans (by linarith : K - b ≤ S))]
      obtain ⟨n1, n2⟩ := snode_point (B := env.B) (S := S) (c := -env.B) le_rfl (by linarith)
      refine ⟨⟨[⟨S, -env.B, 0⟩], S, S⟩, -env.B, ?_, n1, ?_, ?_⟩
      · simp only [hr, Tr.appendIfEmpty, if_true, append_empty, Signal.front]
      · simp only [if_pos hKb]; exact n2
      · exact er_inj (n2 S le_rfl le_rfl)
    · push Not at hKb
      obtain ⟨w', r1, r2, r3⟩ := h3 (min (K - b) E) (le_min (by linarith) hSE)
        ((min_le_left _ _).trans (by linarith))
        (fun e1 _ => Or.inl (lt_of_le_of_lt (min_le_left _ _) (by linarith)))
      obtain ⟨q, hq, hq'⟩ := r2.front
      rw [min_comm E, max_eq_right (le_min (by linarith) hSE)]
      refine ⟨w', q.value, ?_, r2, ?_, hq'⟩
      · simp only [r1, appendIfEmpty_ne r2.wf.ne, hq]
      · simp only [if_neg (not_lt.2 hKb)]; exact r3

/-- Both bound computations give the bounds of the interval semantics. -/
theorem bnd_step (hL : FeedP env n) (T : Tr) : ∀ {p : Bool} {S E : ℚ}, 0 ≤ S → S ≤ E →
    IsFormula n env.params T → TOk env.data env.params S E T → Settled n env.data T → SPAft env none S E T →
    Started (lastTime env.data) env.params p S T → OffEdge (lastTime env.data) env.params p S E T →
    Uncut (lastTime env.data) env.params S E T → StepBound env.B env.data env.params p S E T →
    ∃ T' v, bnd env p T = .ok (T', v) ∧ SBOut env p S E T T' v := by
  set d := lastTime env.data with hd
  have atom0 : ∀ {p : Bool} {S E : ℚ} {s : St} {k : Cmp} {l r : Tr}, 0 ≤ S → S ≤ E →
      IsFormula n env.params (.atom s k l r) → TOk env.data env.params S E (.atom s k l r) →
      Settled n env.data (.atom s k l r) → (S ≤ d → SPAft env none S E (.atom s k l r)) →
      Started d env.params p S (.atom s k l r) →
      ∃ T' v, bnd env p (.atom s k l r) = .ok (T', v) ∧ SBOut env p S E (.atom s k l r) T' v := by
    intro p S E s k l r h0 hSE hF hT hset hA hst
    rcases le_or_gt S d with h | h
    · obtain ⟨g1, x, g2, g3, g4, g5⟩ := hA h h
      obtain rfl : s.z = x := g5
      obtain ⟨T', q, a1, a2, a3⟩ := atom_step_reached (p := p) hL (le_min hSE h) hT.1.1 hset g1 g2.wf.ne g2.e
      have hk : known d env.params p S E (.atom s k l r) = min E d := by
        simp only [known]; exact max_eq_right (le_min hSE h)
      obtain ⟨q', hq, hq'⟩ := g2.front
      rw [hq] at a3
      obtain rfl := Except.ok.inj a3
      refine ⟨T', _, a1, ?_, ?_, ?_⟩
      · rw [a2, ← hd, hk]; exact g2
      · rw [a2, ← hd, hk]
        intro t c e
        simp only [robBound, ← hd, if_neg (not_lt.2 h)]
        exact g4 t c e
      · rw [a2]; exact hq'
    · obtain rfl : p = true := hst.resolve_right (not_le.2 h)
      obtain ⟨T', a1, a2⟩ := atom_unreached hL.prev.shape hL.sem hL.ne h0 hSE h hF hT
      obtain ⟨n1, n2⟩ := snode_point (B := env.B) (S := S) (c := -env.B) le_rfl (by linarith [hL.big])
      have hk : known d env.params true S E (.atom s k l r) = S := by
        simp only [known]; exact max_eq_left ((min_le_right _ _).trans h.le)
      refine ⟨T', _, a1, ?_, ?_, ?_⟩
      · rw [a2, ← hd, hk]; exact n1
      · rw [a2, ← hd, hk]
        intro t c e
        simp only [robBound, ← hd, if_pos h, if_true]
        exact n2 t c e
      · rw [a2]; exact er_inj (n2 S le_rfl le_rfl)
  induction T with
  | atom s k l r =>
    intro p S E h0 hSE hF hT hset hA hst _ _ _
    exact atom0 h0 hSE hF hT hset (fun _ => hA) hst
  | not s c ih =>
    intro p S E h0 hSE hF hT hset hA hst hoe huc hnl
    obtain ⟨c', v, a1, a2⟩ := ih (p := !p) h0 hSE hF hT.2 hset hA hst hoe huc hnl
    obtain ⟨q, hq, hq'⟩ := a2.node.not.front
    cases p
    · refine ⟨.not { s with zup := computeNot c'.st.zlow } c', q.value, ?_, a2.node.not, ?_, hq'⟩
      · simp only [bnd, Bool.not_false, if_true] at a1
        have hne : c'.st.zlow.samples ≠ [] := a2.node.wf.ne
        have hq : (computeNot c'.st.zlow).front = .ok q := hq
        simp only [bnd, Bool.false_eq_true, if_false, Tr.computeUp, a1, bind, Except.bind, if_neg hne, hq]
      · exact a2.is.not
    · refine ⟨.not { s with zlow := computeNot c'.st.zup } c', q.value, ?_, a2.node.not, ?_, hq'⟩
      · simp only [bnd, Bool.not_true, Bool.false_eq_true, if_false] at a1
        have hne : c'.st.zup.samples ≠ [] := a2.node.wf.ne
        have hq : (computeNot c'.st.zup).front = .ok q := hq
        simp only [bnd, if_true, Tr.computeLow, a1, bind, Except.bind, if_neg hne, hq]
      · exact a2.is.not
  | and s l r ih1 ih2 =>
    intro p S E h0 hSE hF hT hset hA hst hoe huc hnl
    obtain ⟨l', v1, a1, a2⟩ := ih1 (p := p) h0 hSE hF.1 hT.2.1 hset.1 hA.1 hst.1 hoe.1 huc.1 hnl.1
    obtain ⟨r', v2, b1, b2⟩ := ih2 (p := p) h0 hSE hF.2 hT.2.2 hset.2 hA.2 hst.2 hoe.2 huc.2 hnl.2.1
    obtain ⟨z, w, q, c1, c2, c3, c4, c5, c6, c7⟩ := a2.node.andBound (if p then -env.B else env.B) b2.node
      (a2.node.settled_at le_rfl a2.is (min_le_left _ _) hnl.2.2.1)
      (b2.node.settled_at le_rfl b2.is (min_le_right _ _) hnl.2.2.2)
    have his : Is w S (known d env.params p S E (.and s l r)) (robBound .PREVIOUS env.B env.data env.params p S E (.and s l r)) :=
      (a2.is.mono (min_le_left _ _)).min (b2.is.mono (min_le_right _ _)) c5
    have hs := hT.1.1
    cases p
    · simp only [bnd, pick, Bool.false_eq_true, if_false] at a1 b1 c1 c3
      refine ⟨.and { s with zup := w } l' r', q.value, ?_, c4, his, c7⟩
      simp only [bnd, Bool.false_eq_true, if_false, Tr.computeUp, a1, b1, bind, Except.bind, Tr.andUp,
        c1, c2, hs, c3, appendIfEmpty_ne c4.wf.ne, c6]
    · have e1 := a2.node.e
      have e2 := b2.node.e
      simp only [bnd, pick, if_true] at a1 b1 c1 c3 e1 e2
      refine ⟨.and { s with zlow := w } l' r', q.value, ?_, c4, his, c7⟩
      simp only [bnd, if_true, Tr.computeLow, a1, b1, bind, Except.bind, Tr.andLow,
        c1, e1, e2, hs, c3, appendIfEmpty_ne c4.wf.ne, c6]
  | or s l r ih1 ih2 =>
    intro p S E h0 hSE hF hT hset hA hst hoe huc hnl
    obtain ⟨l', v1, a1, a2⟩ := ih1 (p := p) h0 hSE hF.1 hT.2.1 hset.1 hA.1 hst.1 hoe.1 huc.1 hnl.1
    obtain ⟨r', v2, b1, b2⟩ := ih2 (p := p) h0 hSE hF.2 hT.2.2 hset.2 hA.2 hst.2 hoe.2 huc.2 hnl.2.1
    obtain ⟨z, w, q, c1, c2, c3, c4, c5, c6, c7⟩ := a2.node.orBound (if p then -env.B else env.B) b2.node
      (a2.node.settled_at le_rfl a2.is (min_le_left _ _) hnl.2.2.1)
      (b2.node.settled_at le_rfl b2.is (min_le_right _ _) hnl.2.2.2)
    have his : Is w S (known d env.params p S E (.or s l r)) (robBound .PREVIOUS env.B env.data env.params p S E (.or s l r)) :=
      (a2.is.mono (min_le_left _ _)).max (b2.is.mono (min_le_right _ _)) c5
    have hs := hT.1.1
    cases p
    · have e1 := a2.node.e
      have e2 := b2.node.e
      simp only [bnd, pick, Bool.false_eq_true, if_false] at a1 b1 c1 c3 e1 e2
      refine ⟨.or { s with zup := w } l' r', q.value, ?_, c4, his, c7⟩
      simp only [bnd, Bool.false_eq_true, if_false, Tr.computeUp, a1, b1, bind, Except.bind, Tr.orUp,
        c1, e1, e2, hs, c3, appendIfEmpty_ne c4.wf.ne, c6]
    · simp only [bnd, pick, if_true] at a1 b1 c1 c3
      refine ⟨.or { s with zlow := w } l' r', q.value, ?_, c4, his, c7⟩
      simp only [bnd, if_true, Tr.computeLow, a1, b1, bind, Except.bind, Tr.orLow,
        c1, c2, hs, c3, appendIfEmpty_ne c4.wf.ne, c6]
  | implies s l r ih1 ih2 =>
    intro p S E h0 hSE hF hT hset hA hst hoe huc hnl
    obtain ⟨l', v1, a1, a2⟩ := ih1 (p := !p) h0 hSE hF.1 hT.2.1 hset.1 hA.1 hst.1 hoe.1 huc.1 hnl.1
    obtain ⟨r', v2, b1, b2⟩ := ih2 (p := p) h0 hSE hF.2 hT.2.2 hset.2 hA.2 hst.2 hoe.2 huc.2 hnl.2.1
    obtain ⟨z, w, q, c1, c2, c3, c4, c5, c6, c7⟩ :=
      a2.node.not.orBound (if p then -env.B else env.B) b2.node
      (fun h => by rw [v_not, v_not, a2.node.settled_at le_rfl a2.is (min_le_left _ _) hnl.2.2.1 h])
      (b2.node.settled_at le_rfl b2.is (min_le_right _ _) hnl.2.2.2)
    have his : Is w S (known d env.params p S E (.implies s l r))
        (robBound .PREVIOUS env.B env.data env.params p S E (.implies s l r)) :=
      (a2.is.not.mono (min_le_left _ _)).max (b2.is.mono (min_le_right _ _)) c5
    have hs := hT.1.1
    cases p
    · have e1 := a2.node.not.e
      have e2 := b2.node.e
      simp only [bnd, pick, Bool.false_eq_true, if_false, Bool.not_false, if_true] at a1 b1 c1 c3 e1 e2
      refine ⟨.implies { s with zup := w } l' r', q.value, ?_, c4, his, c7⟩
      simp only [bnd, Bool.false_eq_true, if_false, Tr.computeUp, a1, b1, bind, Except.bind, Tr.impliesUp,
        c1, e1, e2, hs, c3, appendIfEmpty_ne c4.wf.ne, c6]
    · simp only [bnd, pick, if_true, Bool.not_true, Bool.false_eq_true, if_false] at a1 b1 c1 c2 c3
      refine ⟨.implies { s with zlow := w } l' r', q.value, ?_, c4, his, c7⟩
      simp only [bnd, if_true, Tr.computeLow, a1, b1, bind, Except.bind, Tr.impliesLow,
        c1, c2, hs, c3, appendIfEmpty_ne c4.wf.ne, c6]
  | ev s I c ih =>
    intro p S E h0 hSE hF hT hset hA hst hoe huc hnl
    obtain ⟨ha, hab, hFc⟩ := hF
    obtain ⟨hTs, _, _, hTc⟩ := hT
    rw [ivA_eq, ivB_eq] at hTc
    simp only [OffEdge, Uncut, StepBound, SPAft, Started] at hoe huc hnl hA hst
    rw [← hd] at hA hnl
    set a := bound env.params I.beginStr I.begin with hadef
    set b := bound env.params I.stopStr I.stop with hbdef
    set K := known d env.params p (S + a) (E + b) c with hKdef
    have hKm := known_mem (d := d) (n := n) c (p := p) (S := S + a) (E := E + b) (by linarith) hFc
    rw [← hKdef] at hKm
    have child : ∃ c' v z u, bnd env p c = .ok (c', v) ∧ pick p c'.st = z ∧ SNode env.B z u K ∧ u ≤ S + a ∧
        Is z (S + a) K (robBound .PREVIOUS env.B env.data env.params p (S + a) (E + b) c) ∧
        (p = true → a < b → u + (b - a) < K → K ≤ E + a → z.v (mi K) = z.v (pl K)) := by
      have direct : (a < b → S + b < K → ¬ IsAtom c) →
          (∃ T' v, bnd env p c = .ok (T', v) ∧ SBOut env p (S + a) (E + b) c T' v) →
          ∃ c' v z u, bnd env p c = .ok (c', v) ∧ pick p c'.st = z ∧ SNode env.B z u K ∧ u ≤ S + a ∧
          Is z (S + a) K (robBound .PREVIOUS env.B env.data env.params p (S + a) (E + b) c) ∧
          (p = true → a < b → u + (b - a) < K → K ≤ E + a → z.v (mi K) = z.v (pl K)) := by
        rintro hna ⟨c', v, a1, a2⟩
        refine ⟨c', v, _, S + a, a1, rfl, a2.node, le_rfl, a2.is, ?_⟩
        intro e1 e2 e3 e4
        have e3 : S + b < K := by linarith
        exact a2.node.settled_at le_rfl a2.is le_rfl (hnl.2 e1 e2 e4 (Or.inl ⟨hna e2 e3, e3⟩)) (by linarith)
      by_cases hat : IsAtom c
      · cases c with
        | atom cs k l r =>
          rcases le_or_gt (S + a) d with h | h
          · have hKe : K = min (E + b) d := by
              rw [hKdef]; simp only [known]; exact max_eq_right (le_min (by linarith) h)
            rw [min_of_known hab] at hA
            obtain ⟨g1, x, g2, g3, g4, g5⟩ := hA h
            rw [← hd, ← hKe] at g1 g2 g4 g5
            have hu := huc.2 trivial
            have g5 : Signal.resize x (min (d - a) E - b) K 0 = .ok cs.z := g5
            obtain ⟨hzN, hzv, hzl⟩ := g2.extend g3 hu g5
            obtain ⟨T', q, a1, a2, a3⟩ := atom_step_reached (p := p) hL hKm.1 hTc.1.1 hset g1 hzN.wf.ne hzN.e
            have hf : Is cs.z (S + a) K (robBound .PREVIOUS env.B env.data env.params p (S + a) (E + b) (.atom cs k l r)) := by
              intro t e1 e2
              simp only [robBound, ← hd, if_neg (not_lt.2 h)]
              rw [hzv t e1 e2]
              exact g4 t e1 e2
            refine ⟨T', _, cs.z, min (d - a) E - b, a1, a2, hzN, hu, hf, ?_⟩
            intro e1 e2 e3 e4
            have ha0 : 0 < a := by
              rcases ha.lt_or_eq with h | h
              · exact h
              · exfalso
                rw [← h] at e3 e4
                have k1 : d ≤ E := by
                  rw [hKe] at e4
                  rcases min_le_iff.1 e4 with k | k
                  · linarith
                  · linarith
                have k2 : K ≤ d := by rw [hKe]; exact min_le_right _ _
                rw [min_eq_left (by linarith)] at e3
                linarith
            rcases hKm.1.lt_or_eq with hlt | heq
            · exact hzN.settled_at hu hf le_rfl (hnl.2 e1 e2 e4 (Or.inr ⟨trivial, ha0⟩)) hlt
            · rw [← heq]; exact hzl (by linarith)
          · refine direct (fun _ e => ?_) (atom0 (by linarith) (by linarith) hFc hTc hset
              (fun h' => absurd h' (not_le.2 h)) hst)
            exfalso
            have : K = S + a := by
              rw [hKdef]; simp only [known]; exact max_eq_left ((min_le_right _ _).trans h.le)
            linarith
        | _ => exact hat.elim
      · exact direct (fun _ _ => hat) (ih (by linarith) (by linarith) hFc hTc hset (hA.cut hat) hst hoe.1 huc.1 hnl.1)
    obtain ⟨c', v, z, u, c1, c2, c3, c4, c6, c7⟩ := child
    obtain ⟨w, v', d1, d2, d3, d4⟩ := ev_step_part (p := p) hL.big ⟨hTs.1, hTs.2.1⟩ h0 hSE ha hab c3 c4 hKm.1 c6 c7
      hoe.2
    have hk : known d env.params p S E (.ev s I c) = (if p then min E (K - a) else max S (min E (K - b))) := rfl
    have hr : robBound .PREVIOUS env.B env.data env.params p S E (.ev s I c) =
        (fun t => if p = false ∧ K < S + b then er env.B else
          ⨆ r ∈ Set.Icc (t + a) (min (t + b) K), robBound .PREVIOUS env.B env.data env.params p (S + a) (E + b) c r) := rfl
    rw [← hk] at d2 d3
    rw [← hr] at d3
    cases p
    · simp only [bnd, pick, Bool.false_eq_true, if_false] at c1 c2 d1
      refine ⟨.ev { s with zup := w } I c', v', ?_, d2, d3, d4⟩
      simp only [bnd, Bool.false_eq_true, if_false, Tr.computeUp, c1, bind, Except.bind, c2, ivA_eq, ivB_eq,
        ← hadef, ← hbdef, d1]
    · simp only [bnd, pick, if_true] at c1 c2 d1
      refine ⟨.ev { s with zlow := w } I c', v', ?_, d2, d3, d4⟩
      simp only [bnd, if_true, Tr.computeLow, c1, bind, Except.bind, c2, ivA_eq, ivB_eq,
        ← hadef, ← hbdef, d1]
  | alw s I c ih =>
    intro p S E h0 hSE hF hT hset hA hst hoe huc hnl
    obtain ⟨ha, hab, hFc⟩ := hF
    obtain ⟨hTs, _, _, hTc⟩ := hT
    rw [ivA_eq, ivB_eq] at hTc
    simp only [OffEdge, Uncut, StepBound, SPAft, Started] at hoe huc hnl hA hst
    rw [← hd] at hnl
    set a := bound env.params I.beginStr I.begin with hadef
    set b := bound env.params I.stopStr I.stop with hbdef
    set K := known d env.params p (S + a) (E + b) c with hKdef
    obtain ⟨c', v, c1, c2⟩ := ih (p := p) (by linarith) (by linarith) hFc hTc hset hA hst hoe.1 huc hnl.1
    obtain ⟨w, v', d1, d2, d3, d4⟩ := alw_step_part (p := p) hL.big ⟨hTs.1, hTs.2.1⟩ h0 hSE ha hab c2.node c2.is
      (fun e1 e2 e3 e4 => c2.node.settled_at le_rfl c2.is le_rfl (hnl.2 e1 e2 e4 e3) (by linarith)) hoe.2
    have hk : known d env.params p S E (.alw s I c) = (if p then max S (min E (K - b)) else min E (K - a)) := rfl
    have hr : robBound .PREVIOUS env.B env.data env.params p S E (.alw s I c) =
        (fun t => if p = true ∧ K < S + b then er (-env.B) else
          ⨅ r ∈ Set.Icc (t + a) (min (t + b) K), robBound .PREVIOUS env.B env.data env.params p (S + a) (E + b) c r) := rfl
    rw [← hk] at d2
    rw [← hr] at d3
    cases p
    · simp only [bnd, pick, Bool.false_eq_true, if_false] at c1 d1
      refine ⟨.alw { s with zup := w } I c', v', ?_, d2, d3, d4⟩
      simp only [bnd, Bool.false_eq_true, if_false, Tr.computeUp, c1, bind, Except.bind, ivA_eq, ivB_eq,
        ← hadef, ← hbdef, d1]
    · simp only [bnd, pick, if_true] at c1 d1
      refine ⟨.alw { s with zlow := w } I c', v', ?_, d2, d3, d4⟩
      simp only [bnd, if_true, Tr.computeLow, c1, bind, Except.bind, ivA_eq, ivB_eq,
        ← hadef, ← hbdef, d1]
  | _ => intro _ _ _ _ _ hF; exact hF.elim

end
end STLRom
