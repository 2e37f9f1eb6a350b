import Verif.Proofs.StepTimed

/-!
# The robustness of formulas on step signals
-/

namespace STLRom
open Signal Spec

section
variable {env : Env} {n : ℕ}

/-- The robustness signal of an until-free formula in PREVIOUS mode. -/
theorem rob_prev (hL : Prev env n) (hsem : env.sem = .SPACE) (T : Tr) : ∀ {S E : ℚ}, 0 ≤ S → S ≤ E →
    Covers env.data S (E + reach env.params T) → IsFormula n env.params T →
    Fresh env.params S E T → StepOk env.data env.params S E T →
    AtomsWithin .PREVIOUS env.B env.data env.params S E T →
    ∃ T' v, Tr.computeRob env T = .ok (T', v) ∧ StepOutcome env S E T T' v := by
  induction T with
  | atom s k l r =>
    intro S E h0 hSE hc hF hf hk hB
    exact atom_prev hL hsem (covers_mono hc le_rfl (by simp [reach])) (h0.trans hSE) hSE hF hf hk hB
  | not s c ih =>
    intro S E h0 hSE hc hF hf hk hB
    obtain ⟨c', v, a1, a2⟩ := ih h0 hSE hc hF hf.2 hk hB
    obtain ⟨p, hp, hpv⟩ := a2.node.not.front
    refine ⟨.not { s with z := computeNot c'.st.z } c', p.value, ?_, ⟨a2.node.not, a2.is.not, hpv⟩⟩
    simp only [Tr.computeRob, a1, bind, Except.bind, hp]
  | and s l r ih1 ih2 =>
    intro S E h0 hSE hc hF hf hk hB
    obtain ⟨l', v, a1, a2⟩ := ih1 h0 hSE (covers_mono hc le_rfl (by simp [reach])) hF.1 hf.2.1 hk.1 hB.1
    obtain ⟨r', w, b1, b2⟩ := ih2 h0 hSE (covers_mono hc le_rfl (by simp [reach])) hF.2 hf.2.2 hk.2.1 hB.2
    obtain ⟨z, c1, c2, c3⟩ := a2.node.and b2.node (a2.node.settled a2.is hk.2.2.1)
      (b2.node.settled b2.is hk.2.2.2)
    obtain ⟨p, hp, hpv⟩ := c2.front
    have hz : Tr.andRob l'.st.z r'.st.z = .ok z := by
      unfold Tr.andRob
      have e1 : ({ l'.st.z with endTime := max l'.st.z.endTime r'.st.z.endTime } : Signal) = l'.st.z := by
        rw [a2.node.e, b2.node.e, max_self, ← a2.node.e]
      have e2 : ({ r'.st.z with endTime := max l'.st.z.endTime r'.st.z.endTime } : Signal) = r'.st.z := by
        rw [a2.node.e, b2.node.e, max_self, ← b2.node.e]
      simp only [e1, e2, c1]
    refine ⟨.and { s with z := z } l' r', p.value, ?_, ⟨c2, a2.is.min b2.is c3, hpv⟩⟩
    simp only [Tr.computeRob, a1, b1, bind, Except.bind, hp, hz]
  | or s l r ih1 ih2 =>
    intro S E h0 hSE hc hF hf hk hB
    obtain ⟨l', v, a1, a2⟩ := ih1 h0 hSE (covers_mono hc le_rfl (by simp [reach])) hF.1 hf.2.1 hk.1 hB.1
    obtain ⟨r', w, b1, b2⟩ := ih2 h0 hSE (covers_mono hc le_rfl (by simp [reach])) hF.2 hf.2.2 hk.2.1 hB.2
    obtain ⟨z, c1, c2, c3⟩ := a2.node.or b2.node (a2.node.settled a2.is hk.2.2.1)
      (b2.node.settled b2.is hk.2.2.2)
    obtain ⟨p, hp, hpv⟩ := c2.front
    have hz : Tr.orRob l'.st.z r'.st.z = .ok z := by
      unfold Tr.orRob
      have e1 : ({ l'.st.z with endTime := max l'.st.z.endTime r'.st.z.endTime } : Signal) = l'.st.z := by
        rw [a2.node.e, b2.node.e, max_self, ← a2.node.e]
      have e2 : ({ r'.st.z with endTime := max l'.st.z.endTime r'.st.z.endTime } : Signal) = r'.st.z := by
        rw [a2.node.e, b2.node.e, max_self, ← b2.node.e]
      simp only [e1, e2, c1]
    refine ⟨.or { s with z := z } l' r', p.value, ?_, ⟨c2, a2.is.max b2.is c3, hpv⟩⟩
    simp only [Tr.computeRob, a1, b1, bind, Except.bind, hp, hz]
  | implies s l r ih1 ih2 =>
    intro S E h0 hSE hc hF hf hk hB
    obtain ⟨l', v, a1, a2⟩ := ih1 h0 hSE (covers_mono hc le_rfl (by simp [reach])) hF.1 hf.2.1 hk.1 hB.1
    obtain ⟨r', w, b1, b2⟩ := ih2 h0 hSE (covers_mono hc le_rfl (by simp [reach])) hF.2 hf.2.2 hk.2.1 hB.2
    obtain ⟨z, c1, c2, c3⟩ := a2.node.not.or b2.node
      (fun h => by rw [v_not, v_not, a2.node.settled a2.is hk.2.2.1 h])
      (b2.node.settled b2.is hk.2.2.2)
    obtain ⟨p, hp, hpv⟩ := c2.front
    refine ⟨.implies { s with z := z } l' r', p.value, ?_, ⟨c2, a2.is.not.max b2.is c3, hpv⟩⟩
    simp only [Tr.computeRob, a1, b1, bind, Except.bind, hp, computeImpliesM, c1]
  | ev s I c ih =>
    intro S E h0 hSE hc hF hf hk hB
    obtain ⟨ha, hab, hFc⟩ := hF
    set a := bound env.params I.beginStr I.begin with hadef
    set b := bound env.params I.stopStr I.stop with hbdef
    obtain ⟨c', v, a1, a2⟩ := ih (S := S + a) (E := E + b) (by linarith) (by linarith)
      (covers_mono hc (by linarith) (by simp [reach, ← hbdef]; linarith)) hFc hf.2 hk hB
    obtain ⟨z, b1, b0, b2, z', b3, b4, b5⟩ := a2.node.ev (old := s.z) hSE a2.is ha hab
    obtain ⟨p, hp, hpv⟩ := b4.front
    obtain ⟨zc, hzc⟩ : ∃ zc, Signal.resize c'.st.z (E - b) (E + b) 0 = .ok zc :=
      resize_total _ _ _ a2.node.wf.ne
    have het : min z.endTime s.stop = E := by rw [hf.1.2.1]; exact min_eq_right b2
    have hz : Tr.evRob env.B s a b c'.st.z = .ok (z', zc) := by
      unfold Tr.evRob
      simp only [b1, bind, Except.bind, het]
      rw [a2.node.e, hzc]
      simp only [hf.1.1, max_eq_right hSE, b3]
    refine ⟨.ev { s with z := z' } I (Tr.setZ zc c'), p.value, ?_, ⟨b4, b5, hpv⟩⟩
    simp only [Tr.computeRob, a1, bind, Except.bind, ivA_eq, ivB_eq, ← hadef, ← hbdef, hz, hp]
  | alw s I c ih =>
    intro S E h0 hSE hc hF hf hk hB
    obtain ⟨ha, hab, hFc⟩ := hF
    set a := bound env.params I.beginStr I.begin with hadef
    set b := bound env.params I.stopStr I.stop with hbdef
    obtain ⟨c', v, a1, a2⟩ := ih (S := S + a) (E := E + b) (by linarith) (by linarith)
      (covers_mono hc (by linarith) (by simp [reach, ← hbdef]; linarith)) hFc hf.2 hk hB
    obtain ⟨z, b1, b0, b2, z', b3, b4, b5⟩ := a2.node.alw (old := s.z) hSE a2.is ha hab
    obtain ⟨p, hp, hpv⟩ := b4.front
    have het : min z.endTime s.stop = E := by rw [hf.1.2.1]; exact min_eq_right b2
    have hz : Tr.alwRob env.B s a b c'.st.z = .ok z' := by
      unfold Tr.alwRob
      simp only [b1, bind, Except.bind, het]
      simp only [hf.1.1, max_eq_right hSE, b3]
    refine ⟨.alw { s with z := z' } I c', p.value, ?_, ⟨b4, b5, hpv⟩⟩
    simp only [Tr.computeRob, a1, bind, Except.bind, ivA_eq, ivB_eq, ← hadef, ← hbdef, hz, hp]
  | _ => intro S E h0 hSE hc hF; exact hF.elim

end

theorem stepOk_forget (D : List (List ℚ)) (P : Assoc ℚ) :
    ∀ (T : Tr) (s e : ℚ), StepOk D P s e (T.forgetB false) ↔ StepOk D P s e T := by
  intro T
  induction T <;> intro s e <;> simp_all [Tr.forgetB, StepOk, isLeaf_forget, rob_forget]

/-- The result of an evaluation in PREVIOUS mode. -/
theorem evalRob_step {g g' : Globals} {m m' : Monitor} {n : ℕ} {T : Tr} {s e v : ℚ}
    (h : Ready .PREVIOUS n g.B m T s e) (hk : StepOk m.data m.params s e T)
    (hv : m.evalRob g s e = (g', m', .ok v)) :
    rob .PREVIOUS m.data m.params T s = er v := by
  have hL : Prev (m.envOf g) n := ⟨h.interpol, h.rows⟩
  have hp : (Monitor.prepare m.params s e T).forgetB false = T.forgetB false :=
    Tr.forgetB_prepare (by simp [h.names]) s e T
  set T0 := Monitor.prepare m.params s e T with hT0
  obtain ⟨T1, w, a1, a2⟩ := rob_prev hL h.sem T0 (S := s) (E := e) h.start h.stop
    (by rw [← reach_forget, hp, reach_forget]; exact h.covers)
    (by rw [← isFormula_forget, hp, isFormula_forget]; exact h.shape)
    (fresh_prepare _ T s e)
    (by rw [← stepOk_forget, hp, stepOk_forget]; exact hk)
    (by rw [← atomsWithin_forget, hp, atomsWithin_forget]; exact h.within)
  have hw : rob .PREVIOUS m.data m.params T s = er w := by
    have := a2.is s le_rfl h.stop
    rw [← a2.val] at this
    rw [← this, ← rob_forget, ← hp, rob_forget]
    rfl
  unfold Monitor.evalRob at hv
  rw [h.formula] at hv
  simp only at hv
  split at hv
  · rename_i T' r lo up hr
    simp only [Monitor.run3, bind_eq_ok, Prod.exists] at hr
    obtain ⟨T1', w', k1, T2, lo', k2, T3, up', k3, k4⟩ := hr
    rw [show Tr.computeRob ⟨g.B, m.sem, m.ip, m.data, m.params⟩ (Monitor.prepare m.params s e T) = _ from a1] at k1
    simp only [Except.ok.injEq, Prod.mk.injEq] at k1 k4 hv
    rw [hw, k1.2, k4.2.1, hv.2.2]
  · simp at hv

/-- Plain comparisons and no Boolean operator inside a temporal one: nothing else to ask. -/
theorem stepOk_plain (D : List (List ℚ)) (P : Assoc ℚ) : ∀ (T : Tr) (i : Bool) (s e : ℚ),
    PlainAtoms T → JoinsOutside i T → (i = false → s = e) → StepOk D P s e T := by
  intro T
  induction T with
  | atom _ _ l r => intro i s e h _ _; exact Or.inl h
  | not _ c ih => intro i s e h hj hi; exact ih i s e h hj hi
  | and _ l r ih1 ih2 | or _ l r ih1 ih2 | implies _ l r ih1 ih2 =>
    intro i s e h hj hi
    have he := hi hj.1
    exact ⟨ih1 i s e h.1 hj.2.1 hi, ih2 i s e h.2 hj.2.2 hi, fun k => absurd he k.ne,
      fun k => absurd he k.ne⟩
  | ev _ _ c ih | alw _ _ c ih =>
    intro i s e h hj _
    exact ih true _ _ h hj (fun k => by simp at k)
  | _ => intros; trivial

end STLRom
