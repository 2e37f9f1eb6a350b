import Verif.Proofs.UntilTop
import Verif.Proofs.UntilStep
import Verif.Proofs.StepCover

/-!
# `until` over formulas without `until`, with PREVIOUS interpolation
-/

namespace STLRom
open Signal Spec

/-- A signal at one time has one sample. -/
theorem SNode.node_pt {B t : ℚ} {z : Signal} (h : SNode B z t t) : Node B z t t := by
  obtain ⟨p, l, hl, hp⟩ := h.wf.exists_cons
  have hn : l = [] := by
    cases l with
    | nil => rfl
    | cons q l =>
      have h1 : p.time < q.time := (List.pairwise_cons.1 (hl ▸ h.sinc)).1 q (by simp)
      have h2 := h.wf.le_end q (by rw [hl]; simp)
      rw [hp, h.b] at h1
      rw [h.e] at h2
      exact absurd h1 (not_lt.2 h2)
  rw [hn] at hl
  have hv : z.v (pl t) = p.value := by rw [← h.b, h.wf'.v_begin hl]
  have hz : z = ⟨[⟨t, p.value, p.derivative⟩], t, t⟩ := by
    cases z
    have := h.b
    have := h.e
    cases p
    simp_all
  have := h.bd t le_rfl le_rfl
  rw [hv] at this
  rw [hz]
  exact (STLRom.node_pt this.1 this.2).1

theorem WF.fst {z : Signal} (h : WF z) : Fst z z.beginTime (z.v (pl z.beginTime)) := by
  obtain ⟨p, l, hl, hp⟩ := h.exists_cons
  exact ⟨rfl, p, l, hl, hp, (h.v_begin hl).symm, fun q hq => h.strict q (by rw [hl]; exact hq)⟩

section
variable {env : Env} {n : ℕ}

/-- What a formula without `until` leads to on a covering trace. -/
theorem step_both (hL : FeedP env n) {T : Tr} {S E : ℚ} (h0 : 0 ≤ S) (hSE : S ≤ E)
    (hc : Covers env.data S (E + reach env.params T)) (hF : IsFormula n env.params T)
    (hf : Fresh env.params S E T) (hk : StepOk env.data env.params S E T)
    (hB : AtomsWithin .PREVIOUS env.B env.data env.params S E T) (hu : Untrimmed env.params S E T) :
    ∃ T' v, Tr.computeRob env T = .ok (T', v) ∧ StepOutcome env S E T T' v ∧
      ∀ p, ∃ U w, bnd env p T' = .ok (U, w) ∧ SNode env.B (pick p U.st) S E ∧
        Is (pick p U.st) S E (rob .PREVIOUS env.data env.params T) ∧ w = (pick p U.st).v (pl S) := by
  obtain ⟨T', v, a1, a2⟩ := rob_prev hL.prev hL.sem T h0 hSE hc hF hf hk hB
  obtain ⟨T1, v1, a1', a3⟩ := rob_any hL.prev.shape hL.sem hL.ne T (h0.trans hSE) hF hf
  rw [a1] at a1'
  obtain ⟨rfl, rfl⟩ := Prod.mk.inj (Except.ok.inj a1')
  have hp := Tr.forgetB_computeRob (b := false) _ a1
  have hF' : IsFormula n env.params T' := by rw [← isFormula_forget, hp, isFormula_forget]; exact hF
  obtain ⟨hS, _⟩ := rob_settles (env := env) hL.prev.shape T hF.stl hf a1
  obtain ⟨hA, _⟩ := step_first hL T h0 hSE hc.1 hF hf (stepOk_to T hk)
    (within_to (fun _ _ _ => rfl) T hF hB) T' v a1
  have hr : rob .PREVIOUS env.data env.params T' = rob .PREVIOUS env.data env.params T := by
    rw [← rob_forget, hp, rob_forget]
  have hl : E + reach env.params T' ≤ lastTime env.data := by
    rw [← reach_forget, hp, reach_forget]; exact covers_last hc
  refine ⟨T', v, a1, a2, fun p => ?_⟩
  have hs := stepSound_covers (B := env.B) T' (p := p) hSE hF' hl
    (by rw [← stepOk_forget, hp, stepOk_forget]; exact hk)
    (by rw [← untrimmed_forget, hp, untrimmed_forget]; exact hu)
  obtain ⟨U, w, b1, b2⟩ := bnd_step hL T' (p := p) h0 hSE hF' a3 hS hA hs.1 hs.2 hs.3 hs.4
  have hkn := known_covers (p := p) T' hSE hF' hl
  refine ⟨U, w, b1, by have := b2.node; rwa [hkn] at this, fun t h1 h2 => ?_, b2.val⟩
  have := b2.is t h1 (by rw [hkn]; exact h2)
  rw [bound_covers T' hSE hF' hl t h1 h2, hr] at this
  exact this

/-- What the operands of `until` lead to. -/
theorem untl_front_step {s : St} {l r : Tr} {I : Ival} {t a b : ℚ} {x y : Signal}
    (hA : bound env.params I.beginStr I.begin = a) (hBd : bound env.params I.stopStr I.stop = b)
    (h0 : 0 ≤ t) (ha : 0 ≤ a) (hab : a < b)
    (hx : SNode env.B x t (t + b)) (hy : SNode env.B y (t + a) (t + b))
    (fx : Is x t (t + b) (rob .PREVIOUS env.data env.params l))
    (gy : Is y (t + a) (t + b) (rob .PREVIOUS env.data env.params r))
    (hset : Settles (rob .PREVIOUS env.data env.params r) (t + a) (t + b)) (old : Signal) :
    ∃ z v, computeTimedUntil env.B old x y a b = .ok z ∧ z.endTime = t + b - a ∧ Fst z t v ∧
      rob .PREVIOUS env.data env.params (.untl s l I r) t = er v ∧ -env.B ≤ v ∧ v ≤ env.B ∧ v ≤ x.v (pl t) := by
  obtain ⟨z, h1, h2, h3, h4, h5⟩ := timedUntil_steps (B := env.B) (old := old) (d := t + b) h0 ha hab
    (by linarith) (fun _ => le_rfl) (by rw [min_self]; exact hx) (by rw [min_self]; exact hy)
    (hx.flat (by linarith)) (by rw [min_self]; exact fx) (by rw [min_self]; exact gy)
  rw [min_self] at h3 h5
  have hfst := h4.fst
  rw [h2] at hfst
  set v := z.v (pl t)
  have hle : er v ≤ er (x.v (pl t)) := by
    rw [← h5]
    refine iSup₂_le fun u hu => inf_le_right.trans ((iInf₂_le t ⟨le_rfl, by linarith [hu.1]⟩).trans ?_)
    rw [fx t le_rfl (by linarith)]
  have hge : er (-env.B) ≤ er v := by
    rw [← h5]
    refine le_iSup₂_of_le (t + a) ⟨le_rfl, by linarith⟩ (le_inf ?_ (le_iInf₂ fun w hw => ?_))
    · rw [gy _ le_rfl (by linarith), er_le]; exact (hy.bd _ le_rfl (by linarith)).1
    · rw [fx _ hw.1 (hw.2.trans (by linarith)), er_le]; exact (hx.bd _ hw.1 (hw.2.trans (by linarith))).1
  refine ⟨z, v, h1, h3, hfst, ?_, er_le.1 hge, (er_le.1 hle).trans (hx.bd t le_rfl (by linarith)).2, er_le.1 hle⟩
  simp only [rob, hA, hBd]
  rw [← h5]
  refine le_antisymm (iSup₂_le fun u hu => ?_) (iSup₂_le fun u hu => le_iSup₂_of_le u ⟨hu.1, hu.2.le⟩ le_rfl)
  rcases hu.2.lt_or_eq with h | h
  · exact le_iSup₂_of_le u ⟨hu.1, h⟩ le_rfl
  · obtain ⟨q, k1, k2, k3⟩ := hset (by linarith)
    refine le_iSup₂_of_le q ⟨k1, k2⟩ (inf_le_inf ?_ (le_iInf₂ fun w hw => iInf₂_le w ⟨hw.1, hw.2.trans (by linarith)⟩))
    rw [h, k3 q le_rfl k2.le]

/-- An until-free formula. -/
theorem top_base_step (hL : FeedP env n) {t : ℚ} (h0 : 0 ≤ t) {T : Tr} (hF : IsFormula n env.params T)
    (hc : Covers env.data t (t + reach env.params T)) (hf : Fresh env.params t t T)
    (hk : StepOk env.data env.params t t T)
    (hB : AtomsWithin .PREVIOUS env.B env.data env.params t t T) (hu : Untrimmed env.params t t T) :
    TopLed env .PREVIOUS t (TopBnd env .PREVIOUS t) T := by
  obtain ⟨T', v, a1, a2, a3⟩ := step_both hL h0 le_rfl hc hF hf hk hB hu
  have hr : rob .PREVIOUS env.data env.params T' = rob .PREVIOUS env.data env.params T := by
    rw [← rob_forget, Tr.forgetB_computeRob _ a1, rob_forget]
  obtain ⟨U1, w1, b1, b2, b3, b4⟩ := a3 true
  obtain ⟨U2, w2, c1, c2, c3, c4⟩ := a3 false
  refine ⟨T', v, a1, by rw [a2.is t le_rfl le_rfl, a2.val], ⟨⟨U1, w1, b1, b2.node_pt, ?_, b4⟩,
    ⟨U2, w2, c1, c2.node_pt, ?_, c4⟩⟩, by rw [a2.val]; exact .inl a2.node.node_pt.lead⟩
  · rw [hr]; exact b3
  · rw [hr]; exact c3

/-- `until` over until-free formulas: all three results. -/
theorem untl_all_step (hL : FeedP env n) {s : St} {l r : Tr} {I : Ival} {t a b : ℚ}
    (hA : bound env.params I.beginStr I.begin = a) (hBd : bound env.params I.stopStr I.stop = b)
    (h0 : 0 ≤ t) (ha : 0 ≤ a) (hab : a < b) (hFl : IsFormula n env.params l) (hFr : IsFormula n env.params r)
    (hc : Covers env.data t (t + reach env.params (.untl s l I r)))
    (hf : Fresh env.params t t (.untl s l I r)) (hk : TopStepOk env.data env.params t (.untl s l I r))
    (hB : AtomsWithin .PREVIOUS env.B env.data env.params t t (.untl s l I r))
    (hu : Untrimmed env.params t t (.untl s l I r)) :
    ∃ T' v, Tr.computeRob env (.untl s l I r) = .ok (T', v) ∧
      rob .PREVIOUS env.data env.params (.untl s l I r) t = er v ∧ Led T'.st.z t v ∧
      (∃ U w, Tr.computeLow env T' = .ok (U, w) ∧
        (rob .PREVIOUS env.data env.params r (t + a) = er (-env.B) → w = -env.B) ∧
        (rob .PREVIOUS env.data env.params r (t + a) ≠ er (-env.B) → w = v ∧
          (rob .PREVIOUS env.data env.params l t ≠ er (-env.B) →
            Node env.B U.st.zlow t t ∧ U.st.zlow.v (pl t) = v))) ∧
      (∃ U w, Tr.computeUp env T' = .ok (U, w) ∧
        (rob .PREVIOUS env.data env.params l t = er env.B ∨
          rob .PREVIOUS env.data env.params r (t + a) = er env.B → w = env.B) ∧
        (¬ (rob .PREVIOUS env.data env.params l t = er env.B ∨
          rob .PREVIOUS env.data env.params r (t + a) = er env.B) → w = v ∧
            Node env.B U.st.zup t t ∧ U.st.zup.v (pl t) = v)) := by
  simp only [Fresh, TopStepOk, AtomsWithin, Untrimmed, hA, hBd, reach] at hf hk hB hu hc
  obtain ⟨l', v1, p1, p2, p3⟩ := step_both hL (T := l) h0 (by linarith)
    (covers_mono hc le_rfl (by rw [add_assoc]; gcongr; exact le_max_left _ _)) hFl hf.2.1 hk.1 hB.1 hu.1
  obtain ⟨r', v2, q1, q2, q3⟩ := step_both hL (T := r) (S := t + a) (by linarith) (by linarith)
    (covers_mono hc (by linarith) (by rw [add_assoc]; gcongr; exact le_max_right _ _)) hFr hf.2.2 hk.2.1 hB.2 hu.2
  obtain ⟨z0, v, z1, z2, z3, z4, e5, e6, -⟩ := untl_front_step (s := s) hA hBd h0 ha hab p2.node q2.node p2.is q2.is
    hk.2.2 s.z
  obtain ⟨z', p, d1, d2, d3, d4⟩ := z3.resize_led 0 h0 (by rw [z2]; linarith)
  obtain ⟨l1, vl, a1, a2, a3, rfl⟩ := p3 true
  obtain ⟨l2, wl, b1, b2, b3, rfl⟩ := p3 false
  obtain ⟨r1, vr, c1, c2, c3, rfl⟩ := q3 true
  obtain ⟨r2, wr, g1, g2, g3, rfl⟩ := q3 false
  obtain ⟨zl, v', e1, e2, e3, e4, -, -, e7⟩ := untl_front_step (s := s) hA hBd h0 ha hab a2 c2 a3 c3 hk.2.2 s.zlow
  obtain ⟨zu, v'', f1, f2, f3, f4, -, -, -⟩ := untl_front_step (s := s) hA hBd h0 ha hab b2 g2 b3 g3 hk.2.2 s.zup
  obtain rfl : v = v' := er_inj (z4.symm.trans e4)
  obtain rfl : v = v'' := er_inj (z4.symm.trans f4)
  have il := a3 t le_rfl (by linarith)
  have ir := c3 (t + a) le_rfl (by linarith)
  have jl := b3 t le_rfl (by linarith)
  have jr := g3 (t + a) le_rfl (by linarith)
  obtain ⟨dz, m1⟩ := e3.resize_pt 0 (by rw [e2]; linarith)
  obtain ⟨dz', m2⟩ := f3.resize_pt 0 (by rw [f2]; linarith)
  have hs1 := hf.1.1
  have hs2 := hf.1.2.1
  simp only [bnd, Bool.false_eq_true, if_false, if_true] at a1 b1 c1 g1
  simp only [pick, Bool.false_eq_true, if_false, if_true] at *
  refine ⟨.untl { s with z := z' } l' I r', p.value, ?_, by rw [d3]; exact z4, by rw [d3]; exact d4, ?_, ?_⟩
  · simp only [Tr.computeRob, p1, q1, bind, Except.bind, Tr.untilRob, ivA_eq, ivB_eq, hA, hBd, z1, d1, d2]
  · rw [d3]
    simp only [Tr.computeLow, a1, c1, bind, Except.bind]
    by_cases h1 : l1.st.zlow.v (pl t) = -env.B
    · rw [if_pos h1]
      refine ⟨_, _, rfl, fun _ => rfl, fun _ => ⟨le_antisymm e5 (by rw [← h1]; exact e7), fun h => absurd ?_ h⟩⟩
      rw [il, h1]
    · rw [if_neg h1]
      by_cases h2 : r1.st.zlow.v (pl (t + a)) = -env.B
      · rw [if_pos h2]
        refine ⟨_, _, rfl, fun _ => rfl, fun h => absurd ?_ h⟩
        rw [ir, h2]
      · rw [if_neg h2]
        simp only [Tr.untilLow, ivA_eq, ivB_eq, hA, hBd, e1, bind, Except.bind, hs1, hs2]
        rw [max_eq_left (min_le_right _ _), m1]
        refine ⟨_, _, rfl, fun h => absurd ?_ h2, fun _ => ⟨rfl, fun _ => node_pt e5 e6⟩⟩
        rw [ir] at h
        exact er_inj h
  · rw [d3]
    simp only [Tr.computeUp, b1, g1, bind, Except.bind]
    by_cases h1 : l2.st.zup.v (pl t) = env.B
    · rw [if_pos h1]
      refine ⟨_, _, rfl, fun _ => rfl, fun h => absurd (Or.inl ?_) h⟩
      rw [jl, h1]
    · rw [if_neg h1]
      by_cases h2 : r2.st.zup.v (pl (t + a)) = env.B
      · rw [if_pos h2]
        refine ⟨_, _, rfl, fun _ => rfl, fun h => absurd (Or.inr ?_) h⟩
        rw [jr, h2]
      · rw [if_neg h2]
        simp only [Tr.untilUp, ivA_eq, ivB_eq, hA, hBd, f1, bind, Except.bind, hs1, hs2]
        rw [max_eq_left (min_le_right _ _), m2]
        refine ⟨_, _, rfl, fun h => ?_, fun _ => ⟨rfl, node_pt e5 e6⟩⟩
        rcases h with h | h
        · rw [jl] at h
          exact absurd (er_inj h) h1
        · rw [jr] at h
          exact absurd (er_inj h) h2

/-- The formulas of `UntilOutside`, with PREVIOUS interpolation. -/
theorem top_step (hL : FeedP env n) {t : ℚ} (h0 : 0 ≤ t) (T : Tr) :
    UntilOutside n env.params T → Covers env.data t (t + reach env.params T) → Fresh env.params t t T →
    TopStepOk env.data env.params t T →
    AtomsWithin .PREVIOUS env.B env.data env.params t t T → Untrimmed env.params t t T →
    BeginsInside .PREVIOUS env.B env.data env.params t T →
    OnTop (TopLed env .PREVIOUS t (TopBnd env .PREVIOUS t)) T := by
  induction T with
  | untl s l I r =>
    rintro ⟨ha, hab, hFl, hFr⟩ hc hf hk hB hu hi
    obtain ⟨T', v, h1, h2, h3, ⟨T1, w1, a1, -, a2⟩, ⟨T2, w2, b1, -, b2⟩⟩ :=
      untl_all_step hL rfl rfl h0 ha hab hFl hFr hc hf hk hB hu
    obtain ⟨rfl, a3⟩ := a2 hi.2.1.ne'
    obtain ⟨a4, a5⟩ := a3 hi.1.1.ne'
    obtain ⟨rfl, b4, b5⟩ := b2 (by rintro (h | h); exacts [hi.1.2.ne h, hi.2.2.ne h])
    have pt : ∀ {u : ℚ}, t ≤ u → u ≤ t → u = t := fun a b => le_antisymm b a
    have hr : rob .PREVIOUS env.data env.params T' = rob .PREVIOUS env.data env.params (.untl s l I r) := by
      rw [← rob_forget, Tr.forgetB_computeRob _ h1, rob_forget]
    exact .base ⟨T', _, h1, h2, ⟨⟨T1, _, a1, a4, fun u p q => by rw [pt p q, hr, h2, a5], a5.symm⟩,
      ⟨T2, _, b1, b4, fun u p q => by rw [pt p q, hr, h2, b5], b5.symm⟩⟩, h3⟩
  | not s c ih => exact fun hF hc hf hk hB hu hi => .not (ih hF hc hf.2 hk hB hu hi)
  | and s l r ih1 ih2 =>
    exact fun hF hc hf hk hB hu hi => .and
      (ih1 hF.1 (covers_mono hc le_rfl (by simp [reach])) hf.2.1 hk.1 hB.1 hu.1 hi.1)
      (ih2 hF.2 (covers_mono hc le_rfl (by simp [reach])) hf.2.2 hk.2 hB.2 hu.2 hi.2)
  | or s l r ih1 ih2 =>
    exact fun hF hc hf hk hB hu hi => .or
      (ih1 hF.1 (covers_mono hc le_rfl (by simp [reach])) hf.2.1 hk.1 hB.1 hu.1 hi.1)
      (ih2 hF.2 (covers_mono hc le_rfl (by simp [reach])) hf.2.2 hk.2 hB.2 hu.2 hi.2)
  | implies s l r ih1 ih2 =>
    exact fun hF hc hf hk hB hu hi => .implies
      (ih1 hF.1 (covers_mono hc le_rfl (by simp [reach])) hf.2.1 hk.1 hB.1 hu.1 hi.1)
      (ih2 hF.2 (covers_mono hc le_rfl (by simp [reach])) hf.2.2 hk.2 hB.2 hu.2 hi.2)
  | _ => exact fun hF hc hf hk hB hu _ => .base (top_base_step hL h0 hF hc hf hk hB hu)

end

theorem topStepOk_forget (D : List (List ℚ)) (P : Assoc ℚ) (t : ℚ) :
    ∀ T : Tr, TopStepOk D P t (T.forgetB false) ↔ TopStepOk D P t T := by
  intro T
  induction T with
  | untl s l I r => simp only [Tr.forgetB, TopStepOk, stepOk_forget, rob_forget]
  | not s c ih => simpa only [Tr.forgetB, TopStepOk] using ih
  | and s l r h1 h2 | or s l r h1 h2 | implies s l r h1 h2 => simp only [Tr.forgetB, TopStepOk, h1, h2]
  | _ => exact stepOk_forget D P _ _ _

theorem topStepReady_feed {g : Globals} {m : Monitor} {n : ℕ} {T : Tr} {t : ℚ} (h : TopStepReady n g.B m T t) :
    FeedP (m.envOf g) n := by
  refine ⟨⟨h.interpol, h.rows⟩, h.sem, ?_, h.big⟩
  obtain ⟨row, _, h1, _⟩ := h.covers.1
  rintro h2
  have h2 : m.data = [] := h2
  rw [h2] at h1
  cases h1

/-- Evaluating a Boolean combination of `until` and until-free formulas with PREVIOUS interpolation. -/
theorem evalRob_top_step {g : Globals} {m : Monitor} {n : ℕ} {T : Tr} {t : ℚ} (h : TopStepReady n g.B m T t)
    (hk : TopStepOk m.data m.params t T)
    (hu : Untrimmed m.params t t T) (hi : BeginsInside .PREVIOUS g.B m.data m.params t T) :
    ∃ g' m' v, m.evalRob1 g t = (g', m', .ok v) ∧ rob .PREVIOUS m.data m.params T t = er v ∧
      m'.rob = v ∧ m'.lowerRob = v ∧ m'.upperRob = v := by
  have hp : (Monitor.prepare m.params t t T).forgetB false = T.forgetB false :=
    Tr.forgetB_prepare (by simp [h.names]) t t T
  exact evalRob_top_of h.formula h.names h.rows (UntilOutside.stl h.shape) (top_step (topStepReady_feed h) h.start _
    (by rw [← untilOutside_forget, hp, untilOutside_forget]; exact h.shape)
    (by rw [← reach_forget, hp, reach_forget]; exact h.covers)
    (fresh_prepare _ T t t)
    (by rw [← topStepOk_forget, hp, topStepOk_forget]; exact hk)
    (by rw [← atomsWithin_forget, hp, atomsWithin_forget]; exact h.within)
    (by rw [← untrimmed_forget, hp, untrimmed_forget]; exact hu)
    (by rw [← beginsInside_forget, hp, beginsInside_forget]; exact hi))

/-- Evaluating `until` over until-free formulas with PREVIOUS interpolation. -/
theorem evalRob_untl_step {g : Globals} {m : Monitor} {n : ℕ} {st : St} {l r : Tr} {I : Ival} {t a : ℚ}
    (h : TopStepReady n g.B m (.untl st l I r) t) (hk : TopStepOk m.data m.params t (.untl st l I r))
    (hu : Untrimmed m.params t t (.untl st l I r)) (hA : bound m.params I.beginStr I.begin = a) :
    ∃ g' m' v, m.evalRob1 g t = (g', m', .ok v) ∧
      rob .PREVIOUS m.data m.params (.untl st l I r) t = er v ∧
      ((rob .PREVIOUS m.data m.params r (t + a) = er (-g.B) → m'.lowerRob = -g.B) ∧
        (rob .PREVIOUS m.data m.params r (t + a) ≠ er (-g.B) → m'.lowerRob = v)) ∧
      ((rob .PREVIOUS m.data m.params l t = er g.B ∨ rob .PREVIOUS m.data m.params r (t + a) = er g.B →
          m'.upperRob = g.B) ∧
        (¬ (rob .PREVIOUS m.data m.params l t = er g.B ∨ rob .PREVIOUS m.data m.params r (t + a) = er g.B) →
          m'.upperRob = v)) := by
  have hp : ∀ T, (Monitor.prepare m.params t t T).forgetB false = T.forgetB false := fun T =>
    Tr.forgetB_prepare (by simp [h.names]) t t T
  obtain ⟨s0, l0, r0, hT0, hl0, hr0⟩ : ∃ s0 l0 r0, Monitor.prepare m.params t t (.untl st l I r) = .untl s0 l0 I r0 ∧
      l0.forgetB false = l.forgetB false ∧ r0.forgetB false = r.forgetB false := by
    have := hp (.untl st l I r)
    simp only [Monitor.prepare, Tr.setTraceData, Tr.setParamMap, Tr.reset, Tr.setHorizon] at this ⊢
    simp only [Tr.forgetB, Tr.untl.injEq] at this
    exact ⟨_, _, _, rfl, this.2.1, this.2.2.2⟩
  have hp' := hp (.untl st l I r)
  have fr := fresh_prepare m.params (.untl st l I r) t t
  rw [hT0] at hp' fr
  have hsh : UntilOutside n m.params (.untl s0 l0 I r0) := by
    rw [← untilOutside_forget, hp', untilOutside_forget]; exact h.shape
  have hstl : IsStl (Monitor.prepare m.params t t (.untl st l I r)) := by
    rw [hT0]; exact UntilOutside.stl (T := .untl s0 l0 I r0) hsh
  have rl : rob .PREVIOUS m.data m.params l0 = rob .PREVIOUS m.data m.params l := by
    rw [← rob_forget, hl0, rob_forget]
  have rr : rob .PREVIOUS m.data m.params r0 = rob .PREVIOUS m.data m.params r := by
    rw [← rob_forget, hr0, rob_forget]
  obtain ⟨T1, v, a1, a2, -, ⟨U1, lo, b1, b2, b3⟩, ⟨U2, up, c1, c2, c3⟩⟩ := untl_all_step (env := m.envOf g)
    (topStepReady_feed h) (I := I) (a := a) hA rfl h.start (by rw [← hA]; exact hsh.1) (by rw [← hA]; exact hsh.2.1)
    hsh.2.2.1 hsh.2.2.2
    (by rw [← reach_forget, hp', reach_forget]; exact h.covers) fr
    (by rw [← topStepOk_forget, hp', topStepOk_forget]; exact hk)
    (by rw [← atomsWithin_forget, hp', atomsWithin_forget]; exact h.within)
    (by rw [← untrimmed_forget, hp', untrimmed_forget]; exact hu)
  have hv : rob .PREVIOUS m.data m.params (.untl st l I r) t = er v := by
    rw [← rob_forget, ← hp', rob_forget]; exact a2
  rw [← hT0] at a1
  obtain ⟨g', m', k1, k2, k3, k4⟩ := evalRob1_of h.formula h.rows hstl a1 b1 c1
  have eB : (m.envOf g).B = g.B := rfl
  have eD : (m.envOf g).data = m.data := rfl
  have eP : (m.envOf g).params = m.params := rfl
  rw [eD, eP, eB, rr] at b2 b3
  rw [eD, eP, eB, rr, rl] at c2 c3
  exact ⟨g', m', v, k1, hv, ⟨fun q => k3.trans (b2 q), fun q => k3.trans (b3 q).1⟩,
    ⟨fun q => k4.trans (c2 q), fun q => k4.trans (c3 q).1⟩⟩

end STLRom
