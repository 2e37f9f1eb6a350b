import Verif.Proofs.UntilFirst
import Verif.Proofs.PartialRun

/-!
# Evaluating `until` over two atoms
-/

namespace STLRom
open Signal Spec

/-- From one-sided points to the robustness of `until`. -/
theorem Wnt.sup {x y : Signal} {B v s lo e : ℚ} {f g : ℚ → EReal} (hx : Node B x s e)
    (hy : Node B y lo e) (hs : s ≤ lo) (hlt : lo < e) (hf : Is x s e f) (hg : Is y lo e g)
    (h : Wnt x.v y.v (pl s) (pl lo) (mi e) v) :
    ⨆ u ∈ Set.Icc lo e, g u ⊓ ⨅ w ∈ Set.Icc s u, f w = er v := by
  have cx : ∀ t, s < t → t ≤ e → x.v (mi t) = x.v (pl t) := fun t a b =>
    hx.cg.cts t (by rw [hx.b]; exact a) (by rw [hx.e]; exact b)
  have cy : ∀ t, lo < t → t ≤ e → y.v (mi t) = y.v (pl t) := fun t a b =>
    hy.cg.cts t (by rw [hy.b]; exact a) (by rw [hy.e]; exact b)
  refine le_antisymm (iSup₂_le fun u hu => ?_) ?_
  · by_contra hcon
    obtain ⟨q, h1, h2⟩ := EReal.lt_iff_exists_rat_btwn.1 (not_le.1 hcon)
    have h1' : v < q := by
      unfold er at h1
      exact_mod_cast h1
    have h2' : er q < g u ⊓ ⨅ w ∈ Set.Icc s u, f w := by unfold er; exact_mod_cast h2
    obtain ⟨h3, h4⟩ := lt_inf_iff.1 h2'
    have hyq : q ≤ y.v (pl u) := by
      rw [hg u hu.1 hu.2] at h3
      exact er_le.1 h3.le
    have hxq : ∀ w, s ≤ w → w ≤ u → q ≤ x.v (pl w) := by
      intro w a b
      have := h4.le.trans (iInf₂_le w ⟨a, b⟩)
      rw [hf w a (b.trans hu.2)] at this
      exact er_le.1 this
    have hxp : ∀ ρ, pl s ≤ ρ → ρ ≤ pl u → q ≤ x.v ρ := by
      intro ρ a b
      rcases Pt.cases ρ with c | c
      · rw [c] at a b ⊢
        exact hxq _ (by simpa using a) (by simpa using b)
      · rw [c] at a b ⊢
        rw [pl_le_mi] at a
        rw [le_pl_iff, mi_time] at b
        rw [cx _ a (b.trans hu.2)]
        exact hxq _ a.le b
    rcases hu.2.lt_or_eq with hue | hue
    · exact absurd (h.2 (pl u) q (by simpa using hu.1) (by simpa using hue) hyq hxp) (not_le.2 h1')
    · refine absurd (h.2 (mi u) q (by rw [pl_le_mi, hue]; exact hlt) (by rw [hue]) ?_ ?_) (not_le.2 h1')
      · rw [cy u (by rw [hue]; exact hlt) hu.2]; exact hyq
      · exact fun ρ a b => hxp ρ a (b.trans (by simp))
  · obtain ⟨σ, h1, h2, h3, h4⟩ := h.1
    have h2' : σ.time ≤ e := by
      have := h2.trans (show mi e ≤ pl e by simp)
      rwa [le_pl_iff] at this
    have key : lo ≤ σ.time ∧ v ≤ y.v (pl σ.time) ∧ ∀ w, s ≤ w → w ≤ σ.time → v ≤ x.v (pl w) := by
      rcases Pt.cases σ with c | c
      · rw [c] at h1 h3 h4
        exact ⟨by simpa using h1, h3, fun w a b => h4 (pl w) (by simpa using a) (by simpa using b)⟩
      · rw [c] at h1 h3 h4
        rw [pl_le_mi] at h1
        refine ⟨h1.le, by rw [← cy _ h1 h2']; exact h3, fun w a b => ?_⟩
        rcases b.lt_or_eq with b | b
        · exact h4 (pl w) (by simpa using a) (by simpa using b)
        · rw [b, ← cx _ (hs.trans_lt h1) h2']
          exact h4 _ (by rw [pl_le_mi]; exact hs.trans_lt h1) le_rfl
    obtain ⟨k1, k2, k3⟩ := key
    refine le_iSup₂_of_le σ.time ⟨k1, h2'⟩ (le_inf ?_ (le_iInf₂ fun w hw => ?_))
    · rw [hg _ k1 h2', er_le]; exact k2
    · rw [hf _ hw.1 (hw.2.trans h2'), er_le]; exact k3 w hw.1 hw.2

/-- `resize` at or before the begin time keeps the first value. -/
theorem resize_front {z : Signal} (hz : WF z) {s t : ℚ} (v : ℚ) (h1 : s ≤ z.beginTime)
    (h2 : z.beginTime ≤ t) (h3 : t ≤ z.endTime) :
    ∃ z' p l, resize z s t v = .ok z' ∧ z'.samples = p :: l ∧ p.value = z.v (pl z.beginTime) := by
  obtain ⟨p, l, hl, hp⟩ := hz.exists_cons
  have htol : (0 : ℚ) < tol := by norm_num [tol]
  have hf : ∃ z1 q r, resizeFront z s = .ok z1 ∧ z1.samples = q :: r ∧ z1.endTime = z.endTime ∧
      q.value = p.value ∧ q.time ≤ t := by
    unfold resizeFront
    by_cases h : s < z.beginTime
    · rw [if_pos h, hl]
      exact ⟨_, _, _, rfl, rfl, rfl, rfl, h1.trans h2⟩
    · rw [if_neg h, hl]
      have : ¬ p.time < s := by rw [hp]; exact not_lt.2 (le_of_eq (le_antisymm h1 (not_lt.1 h)))
      rw [show trimFront s Sample.zero (p :: l) = (Sample.zero, p :: l) by simp [trimFront, this]]
      have h' : ¬ s < p.time := by rw [hp]; exact h
      simp only [if_neg h']
      exact ⟨_, _, _, rfl, rfl, rfl, rfl, by rw [hp]; exact h2⟩
  obtain ⟨z1, q, r, g1, g2, g3, g4, g5⟩ := hf
  obtain ⟨r', k1, _⟩ := Signal.trimBack_head (l := r) g5
  refine ⟨⟨q :: r', s, t⟩, q, r', ?_, rfl, ?_⟩
  · unfold resize
    rw [if_neg (by linarith), g1]
    simp only [bind, Except.bind, resizeBack]
    rw [if_neg (not_lt.2 (h1.trans h2)), if_neg (by rw [g3]; exact not_lt.2 h3), g2, k1]
    simp
  · rw [g4, hz.v_begin hl]

section
variable {env : Env} {n : ℕ}

/-- An atom of an `until`, after `compute_robustness`. -/
theorem atom_operand (hL : Feed env n) {S E : ℚ} {T : Tr} (hat : IsAtom T) (h0 : 0 ≤ S) (hSE : S ≤ E)
    (hfirst : ∃ row t, env.data.head? = some row ∧ row.head? = some t ∧ t ≤ S)
    (hd : S ≤ lastTime env.data) (hF : IsFormula n env.params T) (hf : Fresh env.params S E T)
    (hk : AtomsOkTo env.data env.params S E T) (hB : AtomsWithinTo .LINEAR env.B env.data env.params S E T) :
    ∃ T' w, Tr.computeRob env T = .ok (T', w) ∧
      Node env.B T'.st.z S (min E (lastTime env.data)) ∧
      Is T'.st.z S (min E (lastTime env.data)) (rob .LINEAR env.data env.params T) ∧
      times T'.st.z.samples = grid env.data S (min E (lastTime env.data)) ∧
      ∀ p, ∃ U, bnd env p T' = .ok (U, T'.st.z.v (pl S)) ∧ pick p U.st = T'.st.z := by
  obtain ⟨T', w, a1, a2⟩ := rob_any hL.lin.shape hL.sem hL.ne T (h0.trans hSE) hF hf
  obtain ⟨b1, b2, _⟩ := part_first hL T h0 hSE hfirst hF hf hk hB T' w a1
  obtain ⟨hat', b3⟩ := b2 hat
  obtain ⟨b4, b5⟩ := b3 hd
  have hT : T'.forgetB false = T.forgetB false := Tr.forgetB_computeRob T a1
  have hF' : IsFormula n env.params T' := by
    rw [← isFormula_forget, hT, isFormula_forget]; exact hF
  have hr : rob .LINEAR env.data env.params T' = rob .LINEAR env.data env.params T := by
    rw [← rob_forget, hT, rob_forget]
  cases T' with
  | atom s k l r =>
    have hb : ∀ p, ∃ U q x, bnd env p (.atom s k l r) = .ok (U, q.value) ∧ pick p U.st = s.z ∧
        s.z.front = .ok q ∧ Node env.B x S (min E (lastTime env.data)) ∧
        Is x S (min E (lastTime env.data)) (rob .LINEAR env.data env.params (.atom s k l r)) ∧
        Cut x s.z (min E (lastTime env.data)) none ∧
        times x.samples = grid env.data S (min E (lastTime env.data)) := fun p =>
      atom_reached hL (p := p) h0 hSE hd hF' a2 b1 (fun c hc => by cases hc)
    refine ⟨_, w, a1, b4, ?_, b5, fun p => ?_⟩
    · obtain ⟨_, _, x, _, _, _, _, c5, c6, _⟩ := hb true
      rw [← hr]
      simp only [Cut] at c6
      rw [show (Tr.atom s k l r).st.z = s.z from rfl, c6]
      exact c5
    · obtain ⟨U, q, x, c1, c2, c3, _⟩ := hb p
      obtain ⟨p', d1, d2⟩ := b4.front
      have : q = p' := by
        have := c3.symm.trans d1
        exact Except.ok.inj this
      subst this
      exact ⟨U, by rw [c1, d2], c2⟩
  | _ => exact hat'.elim

/-- Operands that are sampled at the rows only. -/
theorem risesClear_grid {D : List (List ℚ)} {x y : Signal} {s a e : ℚ} (ha : 0 ≤ a)
    (hx : times x.samples = grid D s e) (hy : times y.samples = grid D (s + a) e)
    (bx : x.beginTime = s) (by' : y.beginTime = s + a) : RisesClear x y := by
  intro p hp _ _ q hq _ hlt
  rw [bx, by', max_eq_right (le_add_of_nonneg_right ha)] at hlt ⊢
  have hq' : q.time ∈ grid D (s + a) e := by
    rw [← hy]; exact List.mem_map_of_mem hq
  have hp' : p.time ∈ grid D s e := by
    rw [← hx]; exact List.mem_map_of_mem hp
  have hqs : s + a ≤ q.time := by
    rcases List.mem_cons.1 hq' with h | h
    · exact h.ge
    · simp only [List.mem_filter, decide_eq_true_eq] at h
      exact h.2.1.le
  have hqp : q.time < p.time := by
    rcases lt_max_iff.1 hlt with h | h
    · exact absurd hqs (not_le.2 h)
    · exact h
  have hm : p.time ∈ grid D (s + a) e := by
    rcases List.mem_cons.1 hp' with h | h
    · rw [h] at hqp; linarith
    · simp only [List.mem_filter, decide_eq_true_eq] at h
      refine List.mem_cons_of_mem _ ?_
      simp only [List.mem_filter, decide_eq_true_eq]
      exact ⟨h.1, hqs.trans_lt hqp, h.2.2⟩
  rw [← hy] at hm
  obtain ⟨r, hr, hrt⟩ := List.mem_map.1 hm
  exact ⟨r, hr, by rw [hrt]; exact hqp, by rw [hrt]; exact le_max_right _ _⟩

/-- `compute_timed_until` on two atoms. -/
theorem timedUntil_atoms {D : List (List ℚ)} (hD : (D.map rowTime).Pairwise (· < ·)) {B s a b d : ℚ}
    {old x y : Signal} {f g : ℚ → EReal} (h0 : 0 ≤ s) (ha : 0 ≤ a) (hab : a < b) (hd : s + a < d)
    (hlate : b ≤ d → s + b ≤ d)
    (hx : Node B x s (min (s + b) d)) (hy : Node B y (s + a) (min (s + b) d))
    (tx : times x.samples = grid D s (min (s + b) d))
    (ty : times y.samples = grid D (s + a) (min (s + b) d))
    (fx : Is x s (min (s + b) d) f) (gy : Is y (s + a) (min (s + b) d) g) :
    ∃ z, computeTimedUntil B old x y a b = .ok z ∧ z.beginTime = s ∧
      z.endTime = min (s + b) d - a ∧ WF z ∧
      ⨆ u ∈ Set.Icc (s + a) (min (s + b) d), g u ⊓ ⨅ w ∈ Set.Icc s u, f w = er (z.v (pl s)) := by
  set e := min (s + b) d with he
  have hlt : s + a < e := lt_min (by linarith) hd
  have ix := (Tr.grid_wf hD (by linarith) hx.b hx.e tx).2
  have iy := (Tr.grid_wf hD hlt.le hy.b hy.e ty).2
  have hmin : min x.endTime y.endTime = e := by rw [hx.e, hy.e, min_self]
  obtain ⟨z, z1, z2, z3, z4, z5⟩ := computeTimedUntil_first (B := B) (old := old) (a := a) (b := b)
    hx.wf hy.wf ix iy
    (fun σ h1 h2 => hx.bdp (by rw [← hx.b]; exact h1) (by rw [← hx.e]; exact h2))
    (fun σ h1 h2 => (hy.bdp (by rw [← hy.b]; exact h1) (by rw [← hy.e]; exact h2)).1)
    (risesClear_grid ha tx ty hx.b hy.b) ha hab (by rw [hx.b]; exact h0)
    (by rw [hy.b, hx.b]) (by rw [hmin, hx.b]; exact hlt)
    (fun h => by
      rw [hmin] at h
      rw [hx.b, hy.e]
      exact le_min le_rfl (hlate (h.trans (min_le_right _ _))))
  rw [hmin, hx.b, min_eq_right (by rw [mi_le_pl]; exact min_le_left _ _)] at z5
  exact ⟨z, z1, by rw [z2, hx.b], by rw [z3, hmin], z4, z5.sup hx hy (by linarith) hlt fx gy⟩

end

/-- What an evaluation of `until` at one time returns, from what is known of its operands'
signals: `S` are the times at which the right operand is looked at. -/
theorem evalRob_until_of {g : Globals} {m : Monitor} {n : ℕ} {st : St} {l r : Tr} {I : Ival} {t a b e : ℚ}
    {S : Set ℚ} {fl fr : ℚ → EReal} {l1 r1 : Tr} {wl wr : ℚ} {z : Signal}
    (hform : m.formula = some (.untl st l I r)) (hrows : WellShaped n m.data) (hlf : IsFormula n m.params l) (hrf : IsFormula n m.params r)
    (hA : bound m.params I.beginStr I.begin = a) (hBd : bound m.params I.stopStr I.stop = b)
    (h0 : 0 ≤ t) (ha : 0 ≤ a) (hlt : t + a < e) (hS : t + a ∈ S) (hSt : ∀ u ∈ S, t ≤ u)
    (x1 : Tr.computeRob (m.envOf g) (Monitor.prepare m.params t (t + b) l) = .ok (l1, wl))
    (x2 : ∀ u, t ≤ u → u ≤ e → -g.B ≤ l1.st.z.v (pl u)) (x3' : Is l1.st.z t e fl)
    (x5 : ∀ p, ∃ U, bnd (m.envOf g) p l1 = .ok (U, l1.st.z.v (pl t)) ∧ pick p U.st = l1.st.z)
    (y1 : Tr.computeRob (m.envOf g) (Monitor.prepare m.params (t + a) (t + b) r) = .ok (r1, wr))
    (y2 : ∀ u, t + a ≤ u → u ≤ e → -g.B ≤ r1.st.z.v (pl u)) (y3' : Is r1.st.z (t + a) e fr)
    (y5 : ∀ p, ∃ U, bnd (m.envOf g) p r1 = .ok (U, r1.st.z.v (pl (t + a))) ∧ pick p U.st = r1.st.z)
    (z1 : computeTimedUntil g.B .empty l1.st.z r1.st.z a b = .ok z) (z2 : z.beginTime = t)
    (z3 : t < z.endTime) (z4 : WF z)
    (z5 : ⨆ u ∈ S, fr u ⊓ ⨅ w ∈ Set.Icc t u, fl w = er (z.v (pl t))) :
    ∃ g' m' v, m.evalRob1 g t = (g', m', .ok v) ∧ ⨆ u ∈ S, fr u ⊓ ⨅ w ∈ Set.Icc t u, fl w = er v ∧
      ((fr (t + a) = er (-g.B) → m'.lowerRob = -g.B) ∧ (fr (t + a) ≠ er (-g.B) → m'.lowerRob = v)) ∧
      ((fl t = er g.B ∨ fr (t + a) = er g.B → m'.upperRob = g.B) ∧
        (¬ (fl t = er g.B ∨ fr (t + a) = er g.B) → m'.upperRob = v)) := by
  obtain ⟨st0, hT0, hst⟩ : ∃ st0, Monitor.prepare m.params t t (.untl st l I r) =
      .untl st0 (Monitor.prepare m.params t (t + b) l) I (Monitor.prepare m.params (t + a) (t + b) r) ∧
        FreshSt t t st0 := by
    refine ⟨_, ?_, (fresh_prepare m.params (.untl st l I r) t t).1⟩
    rw [← hA, ← hBd]
    simp only [Monitor.prepare, Tr.setTraceData, Tr.setParamMap, Tr.reset, Tr.setHorizon, ivA_eq, ivB_eq]
  set l0 := Monitor.prepare m.params t (t + b) l with hl0
  set r0 := Monitor.prepare m.params (t + a) (t + b) r with hr0
  have zB : computeTimedUntil (m.envOf g).B .empty l1.st.z r1.st.z a b = .ok z := z1
  set v := z.v (pl t) with hv
  obtain ⟨zr, pr, lr, k1, k2, k3⟩ := resize_front z4 (s := 0) (t := z.endTime) 0
    (by rw [z2]; exact h0) (by rw [z2]; exact z3.le) le_rfl
  obtain ⟨zb, pb, lb, j1, j2, j3⟩ := resize_front z4 (s := t) (t := t) 0
    (by rw [z2]) (by rw [z2]) z3.le
  rw [z2, ← hv] at k3 j3
  have iva : Tr.ivA (m.envOf g).params I = a := by rw [ivA_eq]; exact hA
  have ivb : Tr.ivB (m.envOf g).params I = b := by rw [ivB_eq]; exact hBd
  have hrun : Tr.computeRob (m.envOf g) (.untl st0 l0 I r0) = .ok (.untl { st0 with z := zr } l1 I r1, v) := by
    simp only [Tr.computeRob, x1, y1, bind, Except.bind, Tr.untilRob, iva, ivb, hst.2.2.1]
    rw [zB]
    simp only [k1, Signal.front, k2, k3]
  set T1 : Tr := .untl { st0 with z := zr } l1 I r1 with hT1
  have hlow : ∃ U w, Tr.computeLow (m.envOf g) T1 = .ok (U, w) ∧
      (fr (t + a) = er (-g.B) → w = -g.B) ∧
        (fr (t + a) ≠ er (-g.B) → w = v) := by
    obtain ⟨l2, c1, c2⟩ := x5 true
    obtain ⟨r2, e1, e2⟩ := y5 true
    rw [bnd_true] at c1 e1
    simp only [hT1, Tr.computeLow, c1, e1, bind, Except.bind]
    by_cases h1 : l1.st.z.v (pl t) = -(m.envOf g).B
    · rw [if_pos h1]
      refine ⟨_, _, rfl, fun _ => rfl, fun _ => ?_⟩
      have hle : er v ≤ er (-g.B) := by
        rw [← z5]
        refine iSup₂_le fun u hu => inf_le_right.trans ((iInf₂_le t ⟨le_rfl, hSt u hu⟩).trans ?_)
        rw [x3' t le_rfl (by linarith), h1]
        exact le_rfl
      have hge : er (-g.B) ≤ er v := by
        rw [← z5]
        refine le_iSup₂_of_le (t + a) hS (le_inf ?_ (le_iInf₂ fun w hw => ?_))
        · rw [y3' _ le_rfl hlt.le, er_le]; exact y2 _ le_rfl hlt.le
        · rw [x3' _ hw.1 (hw.2.trans hlt.le), er_le]; exact x2 _ hw.1 (hw.2.trans hlt.le)
      exact le_antisymm (er_le.1 hge) (er_le.1 hle)
    · rw [if_neg h1]
      by_cases h2 : r1.st.z.v (pl (t + a)) = -(m.envOf g).B
      · rw [if_pos h2]
        refine ⟨_, _, rfl, fun _ => rfl, fun h => absurd ?_ h⟩
        rw [y3' _ le_rfl hlt.le, h2]
        rfl
      · rw [if_neg h2]
        have c2' : l2.st.zlow = l1.st.z := c2
        have e2' : r2.st.zlow = r1.st.z := e2
        simp only [Tr.untilLow, iva, ivb, c2', e2', hst.1, hst.2.1, hst.2.2.2.1]
        rw [zB]
        simp only [bind, Except.bind]
        rw [max_eq_left (min_le_right _ _), j1]
        simp only [j2]
        refine ⟨_, _, rfl, fun h => absurd ?_ h2, fun _ => j3⟩
        rw [y3' _ le_rfl hlt.le] at h
        exact er_inj h
  have hup : ∃ U w, Tr.computeUp (m.envOf g) T1 = .ok (U, w) ∧
      (fl t = er g.B ∨ fr (t + a) = er g.B →
          w = g.B) ∧
        (¬ (fl t = er g.B ∨ fr (t + a) = er g.B) →
          w = v) := by
    obtain ⟨l2, c1, c2⟩ := x5 false
    obtain ⟨r2, e1, e2⟩ := y5 false
    rw [bnd_false] at c1 e1
    simp only [hT1, Tr.computeUp, c1, e1, bind, Except.bind]
    by_cases h1 : l1.st.z.v (pl t) = (m.envOf g).B
    · rw [if_pos h1]
      refine ⟨_, _, rfl, fun _ => rfl, fun h => absurd (Or.inl ?_) h⟩
      rw [x3' _ le_rfl (by linarith), h1]
      rfl
    · rw [if_neg h1]
      by_cases h2 : r1.st.z.v (pl (t + a)) = (m.envOf g).B
      · rw [if_pos h2]
        refine ⟨_, _, rfl, fun _ => rfl, fun h => absurd (Or.inr ?_) h⟩
        rw [y3' _ le_rfl hlt.le, h2]
        rfl
      · rw [if_neg h2]
        have c2' : l2.st.zup = l1.st.z := c2
        have e2' : r2.st.zup = r1.st.z := e2
        simp only [Tr.untilUp, iva, ivb, c2', e2', hst.1, hst.2.1, hst.2.2.2.2]
        rw [zB]
        simp only [bind, Except.bind]
        rw [max_eq_left (min_le_right _ _), j1]
        simp only [j2]
        refine ⟨_, _, rfl, fun h => ?_, fun _ => j3⟩
        rcases h with h | h
        · rw [x3' _ le_rfl (by linarith)] at h
          exact absurd (er_inj h) h1
        · rw [y3' _ le_rfl hlt.le] at h
          exact absurd (er_inj h) h2
  obtain ⟨U1, lo, b1, b2⟩ := hlow
  obtain ⟨U2, up, c1, c2⟩ := hup
  have hstl : IsStl (.untl st0 l0 I r0) :=
    ⟨(isFormula_prepare (P := m.params) l _ _ hlf).stl, (isFormula_prepare (P := m.params) r _ _ hrf).stl⟩
  obtain ⟨hS, _⟩ := rob_settles (env := m.envOf g) hrows (.untl st0 l0 I r0) hstl
    (hT0 ▸ fresh_prepare m.params (.untl st l I r) t t) hrun
  obtain ⟨_, hk⟩ := bnd_keeps (env := m.envOf g) hrows T1 hS (b := true) b1
  rcases seen_cases hk.seen with ⟨x, e1, _⟩ | ⟨U', V1, w, e1, e2, _⟩
  · rw [show bnd (m.envOf g) (!true) T1 = Tr.computeUp (m.envOf g) T1 from rfl, c1] at e1; cases e1
  · have hw : up = w := by
      rw [show bnd (m.envOf g) (!true) T1 = Tr.computeUp (m.envOf g) T1 from rfl, c1] at e1
      exact (Prod.mk.inj (Except.ok.inj e1)).2
    have hr : Monitor.run3 (m.envOf g) (.untl st0 l0 I r0) = .ok (V1, v, lo, w) := by
      simp only [Monitor.run3, hrun, b1, bind, Except.bind]
      rw [show Tr.computeUp (m.envOf g) U1 = .ok (V1, w) from e2]
    refine ⟨{ g with sem := m.sem, ip := m.ip },
      { m with formula := some V1, rob := v, lowerRob := lo, upperRob := w }, v, ?_, z5, b2, hw ▸ c2⟩
    unfold Monitor.evalRob1 Monitor.evalRob
    rw [hform]
    simp only
    rw [hT0, show Monitor.run3 ⟨g.B, m.sem, m.ip, m.data, m.params⟩ _ = _ from hr]

/-- What an evaluation of `until` over two atoms at one time returns. -/
theorem evalRob_until {g : Globals} {m : Monitor} {n : ℕ} {st : St} {l r : Tr} {I : Ival} {t a b d : ℚ}
    (hform : m.formula = some (.untl st l I r)) (hsem : m.sem = .SPACE) (hip : m.ip = .LINEAR)
    (hnames : m.params.lookup "" = none) (hrows : WellShaped n m.data) (hbig : 0 ≤ g.B)
    (hfirst : ∃ row t', m.data.head? = some row ∧ row.head? = some t' ∧ t' ≤ t)
    (hla : IsAtom l) (hra : IsAtom r) (hlf : IsFormula n m.params l) (hrf : IsFormula n m.params r)
    (hA : bound m.params I.beginStr I.begin = a) (hBd : bound m.params I.stopStr I.stop = b)
    (hd : lastTime m.data = d)
    (hlo : AtomsOkTo m.data m.params t (t + b) l) (hro : AtomsOkTo m.data m.params (t + a) (t + b) r)
    (hlw : AtomsWithinTo .LINEAR g.B m.data m.params t (t + b) l)
    (hrw : AtomsWithinTo .LINEAR g.B m.data m.params (t + a) (t + b) r)
    (h0 : 0 ≤ t) (ha : 0 ≤ a) (hab : a < b) (hreach : t + a < d) (hlate : b ≤ d → t + b ≤ d) :
    ∃ g' m' v, m.evalRob1 g t = (g', m', .ok v) ∧
      ⨆ u ∈ Set.Icc (t + a) (min (t + b) d), rob .LINEAR m.data m.params r u ⊓
        ⨅ w ∈ Set.Icc t u, rob .LINEAR m.data m.params l w = er v ∧
      ((rob .LINEAR m.data m.params r (t + a) = er (-g.B) → m'.lowerRob = -g.B) ∧
        (rob .LINEAR m.data m.params r (t + a) ≠ er (-g.B) → m'.lowerRob = v)) ∧
      ((rob .LINEAR m.data m.params l t = er g.B ∨ rob .LINEAR m.data m.params r (t + a) = er g.B →
          m'.upperRob = g.B) ∧
        (¬ (rob .LINEAR m.data m.params l t = er g.B ∨ rob .LINEAR m.data m.params r (t + a) = er g.B) →
          m'.upperRob = v)) := by
  have hne : m.data ≠ [] := by
    obtain ⟨row, _, h1, _⟩ := hfirst
    rintro h2
    rw [h2] at h1
    cases h1
  have hL : Feed (m.envOf g) n := ⟨⟨hip, hrows, hnames⟩, hsem, hne, hbig⟩
  have hp : ∀ s e T, (Monitor.prepare m.params s e T).forgetB false = T.forgetB false := fun s e T =>
    Tr.forgetB_prepare (by simp [hnames]) s e T
  set l0 := Monitor.prepare m.params t (t + b) l with hl0
  set r0 := Monitor.prepare m.params (t + a) (t + b) r with hr0
  have atom_forget : ∀ {T : Tr} {s e : ℚ}, IsAtom T → IsAtom (Monitor.prepare m.params s e T) := by
    intro T s e h
    rw [← isAtom_forget, hp, isAtom_forget]; exact h
  have rob_prep : ∀ {T : Tr} {s e : ℚ}, rob .LINEAR m.data m.params (Monitor.prepare m.params s e T) =
      rob .LINEAR m.data m.params T := by
    intro T s e
    rw [← rob_forget, hp, rob_forget]
  obtain ⟨l1, wl, x1, x2, x3, x4, x5⟩ := atom_operand (env := m.envOf g) hL (T := l0)
    (atom_forget hla) h0 (by linarith : t ≤ t + b) hfirst
    (show t ≤ lastTime m.data by rw [hd]; linarith) (isFormula_prepare (P := m.params) l _ _ hlf)
    (fresh_prepare m.params l _ _)
    (by show AtomsOkTo m.data m.params _ _ l0; rw [← atomsOkTo_forget, hp, atomsOkTo_forget]; exact hlo)
    (by show AtomsWithinTo .LINEAR g.B m.data m.params _ _ l0
        rw [← atomsWithinTo_forget, hp, atomsWithinTo_forget]; exact hlw)
  obtain ⟨r1, wr, y1, y2, y3, y4, y5⟩ := atom_operand (env := m.envOf g) hL (T := r0)
    (atom_forget hra) (by linarith : 0 ≤ t + a) (by linarith : t + a ≤ t + b)
    (by obtain ⟨row, t', k1, k2, k3⟩ := hfirst; exact ⟨row, t', k1, k2, by linarith⟩)
    (show t + a ≤ lastTime m.data by rw [hd]; exact hreach.le)
    (isFormula_prepare (P := m.params) r _ _ hrf)
    (fresh_prepare m.params r _ _)
    (by show AtomsOkTo m.data m.params _ _ r0; rw [← atomsOkTo_forget, hp, atomsOkTo_forget]; exact hro)
    (by show AtomsWithinTo .LINEAR g.B m.data m.params _ _ r0
        rw [← atomsWithinTo_forget, hp, atomsWithinTo_forget]; exact hrw)
  have hd' : lastTime (m.envOf g).data = d := hd
  rw [hd'] at x2 x3 x4 y2 y3 y4
  have x3' : Is l1.st.z t (min (t + b) d) (rob .LINEAR m.data m.params l) := by
    rw [← rob_prep (T := l) (s := t) (e := t + b)]; exact x3
  have y3' : Is r1.st.z (t + a) (min (t + b) d) (rob .LINEAR m.data m.params r) := by
    rw [← rob_prep (T := r) (s := t + a) (e := t + b)]; exact y3
  have hinc : (m.data.map rowTime).Pairwise (· < ·) := hrows.inc
  obtain ⟨z, z1, z2, z3, z4, z5⟩ := timedUntil_atoms (old := .empty) hinc h0 ha hab hreach hlate
    x2 y2 x4 y4 x3' y3'
  have hlt : t + a < min (t + b) d := lt_min (by linarith) hreach
  exact evalRob_until_of hform hrows hlf hrf hA hBd h0 ha hlt
    (S := Set.Icc (t + a) (min (t + b) d)) ⟨le_rfl, hlt.le⟩ (fun u hu => by linarith [hu.1])
    x1 (fun u h1 h2 => (x2.bd u h1 h2).1) x3' x5 y1 (fun u h1 h2 => (y2.bd u h1 h2).1) y3' y5
    z1 z2 (by rw [z3]; linarith) z4 z5

end STLRom
