import Verif.Proofs.FormulaLU

/-!
# Evaluating a formula again without a reset
-/

namespace STLRom
open Signal Spec

/-- The horizon of an expression that has been evaluated. -/
theorem EAfter.horizon {D : List (List ℚ)} {S E : ℚ} (P : Assoc ℚ) : ∀ {T : Tr}, EAfter D S E T →
    T.setHorizon P S E = T := by
  intro T
  induction T with
  | sig s v m td =>
    intro h
    obtain ⟨h1, h2⟩ : s.start = S ∧ s.stop = E := ⟨h.st.1, h.st.2.1⟩
    subst h1 h2; rfl
  | const s p v td =>
    intro h
    obtain ⟨h1, h2⟩ : s.start = S ∧ s.stop = E := ⟨h.st.1, h.st.2.1⟩
    subst h1 h2; rfl
  | abs s c ih =>
    intro h
    obtain ⟨h1, h2⟩ : s.start = S ∧ s.stop = E := ⟨h.st.1, h.st.2.1⟩
    simp only [Tr.setHorizon, ih h.2]
    subst h1 h2; rfl
  | plus s l r ih1 ih2 | minus s l r ih1 ih2 | mult s l r ih1 ih2 =>
    intro h
    obtain ⟨h1, h2⟩ : s.start = S ∧ s.stop = E := ⟨h.st.1, h.st.2.1⟩
    simp only [Tr.setHorizon, ih1 h.2.1, ih2 h.2.2]
    subst h1 h2; rfl
  | _ => exact fun h => h.elim

/-- The horizon of a formula that has been evaluated. -/
theorem After.horizon {env : Env} : ∀ {T : Tr} {cut : Option ℚ} {S E : ℚ}, After env cut S E T →
    T.setHorizon env.params S E = T := by
  intro T
  induction T with
  | atom s k l r _ _ =>
    intro cut S E h
    obtain ⟨⟨h1, h2⟩, hl, hr, _⟩ := h
    simp only [Tr.setHorizon, hl.horizon, hr.horizon]
    subst h1 h2; rfl
  | not s c ih =>
    intro cut S E h
    obtain ⟨⟨h1, h2⟩, hc⟩ := h
    simp only [Tr.setHorizon, ih hc]
    subst h1 h2; rfl
  | and s l r ih1 ih2 | or s l r ih1 ih2 | implies s l r ih1 ih2 =>
    intro cut S E h
    obtain ⟨⟨h1, h2⟩, hl, hr⟩ := h
    simp only [Tr.setHorizon, ih1 hl, ih2 hr]
    subst h1 h2; rfl
  | ev s I c ih | alw s I c ih =>
    intro cut S E h
    obtain ⟨⟨h1, h2⟩, hc⟩ := h
    simp only [Tr.setHorizon, ivA_eq, ivB_eq, ih hc]
    subst h1 h2; rfl
  | _ => exact fun h => h.elim

theorem After.spn {env : Env} {T : Tr} {cut : Option ℚ} {S E : ℚ} (h : After env cut S E T) :
    T.st.start = S ∧ T.st.stop = E := by
  cases T with
  | atom => exact h.1
  | not => exact h.1
  | and => exact h.1
  | or => exact h.1
  | implies => exact h.1
  | ev => exact h.1
  | alw => exact h.1
  | _ => exact h.elim

/-- The outcome of evaluating a formula node again. -/
structure Again (env : Env) (S E : ℚ) (T T' : Tr) (r : ℚ) : Prop where
  node : Node env.B T'.st.z S E
  is : Is T'.st.z S E (rob .LINEAR env.data env.params T)
  val : r = T'.st.z.v (pl S)
  mark : Mark env E T T'.st.z

section
variable {env : Env} {n : ℕ}

theorem rob_second (hL : Lin env n) (hsem : env.sem = .SPACE) (hne : env.data ≠ []) (T : Tr) :
    ∀ {S E : ℚ}, 0 ≤ S → S ≤ E → IsFormula n env.params T → After env none S E T →
    NoLongSlope .LINEAR env.data env.params S E T → Untrimmed env.params S E T →
    ∃ T' v, Tr.computeRob env T = .ok (T', v) ∧ Again env S E T T' v := by
  induction T with
  | atom s k l r =>
    intro S E h0 hSE hF ha _ _
    obtain ⟨l', r', v, a1, a2⟩ := atom_again hL hsem hne (h0.trans hSE) hSE hF ha (by simp)
    obtain ⟨_, _, _, x, c1, c2, c3, c4⟩ := ha
    obtain rfl : s.z = x := c3
    obtain ⟨p, hp, hp'⟩ := c1.front
    have hv : v = p.value := by
      simp only [Tr.computeRob, bind_eq_ok, Prod.exists] at a1
      obtain ⟨l1, w1, _, r1, w2, _, z, hz, q, hq, e⟩ := a1
      simp only [Except.ok.injEq, Prod.mk.injEq, Tr.atom.injEq] at e
      obtain ⟨⟨e1, _⟩, e2⟩ := e
      have : z = s.z := by rw [← e1]
      rw [this, hp] at hq
      rw [← e2, ← Except.ok.inj hq]
    exact ⟨_, _, a1, ⟨c1, c2, hv.trans hp', .grid c4⟩⟩
  | not s c ih =>
    intro S E h0 hSE hF ha hn hu
    obtain ⟨c', v, a1, a2⟩ := ih h0 hSE hF ha.2 hn hu
    obtain ⟨p, hp, hpv⟩ := a2.node.not.front
    refine ⟨.not { s with z := computeNot c'.st.z } c', p.value, ?_,
      ⟨a2.node.not, a2.is.not, hpv, a2.mark.not⟩⟩
    simp only [Tr.computeRob, a1, bind, Except.bind, hp]
  | and s l r ih1 ih2 =>
    intro S E h0 hSE hF ha hn hu
    obtain ⟨l', v, a1, a2⟩ := ih1 h0 hSE hF.1 ha.2.1 hn.1 hu.1
    obtain ⟨r', w, b1, b2⟩ := ih2 h0 hSE hF.2 ha.2.2 hn.2 hu.2
    obtain ⟨z, c1, c2, _, c3⟩ := a2.node.and b2.node
    obtain ⟨p, hp, hpv⟩ := c2.front
    have hz : Tr.andRob l'.st.z r'.st.z = .ok z := by
      unfold Tr.andRob
      have e1 : ({ l'.st.z with endTime := max l'.st.z.endTime r'.st.z.endTime } : Signal) = l'.st.z := by
        rw [a2.node.e, b2.node.e, max_self, ← a2.node.e]
      have e2 : ({ r'.st.z with endTime := max l'.st.z.endTime r'.st.z.endTime } : Signal) = r'.st.z := by
        rw [a2.node.e, b2.node.e, max_self, ← b2.node.e]
      simp only [e1, e2, c1]
    refine ⟨.and { s with z := z } l' r', p.value, ?_, ⟨c2, a2.is.min b2.is c3, hpv, .of_end (by
        have := computeAndM_mark c1
        rwa [a2.node.e, b2.node.e, min_self] at this)⟩⟩
    simp only [Tr.computeRob, a1, b1, bind, Except.bind, hp, hz]
  | or s l r ih1 ih2 =>
    intro S E h0 hSE hF ha hn hu
    obtain ⟨l', v, a1, a2⟩ := ih1 h0 hSE hF.1 ha.2.1 hn.1 hu.1
    obtain ⟨r', w, b1, b2⟩ := ih2 h0 hSE hF.2 ha.2.2 hn.2 hu.2
    obtain ⟨z, c1, c2, _, c3⟩ := a2.node.or b2.node
    obtain ⟨p, hp, hpv⟩ := c2.front
    have hz : Tr.orRob l'.st.z r'.st.z = .ok z := by
      unfold Tr.orRob
      have e1 : ({ l'.st.z with endTime := max l'.st.z.endTime r'.st.z.endTime } : Signal) = l'.st.z := by
        rw [a2.node.e, b2.node.e, max_self, ← a2.node.e]
      have e2 : ({ r'.st.z with endTime := max l'.st.z.endTime r'.st.z.endTime } : Signal) = r'.st.z := by
        rw [a2.node.e, b2.node.e, max_self, ← b2.node.e]
      simp only [e1, e2, c1]
    refine ⟨.or { s with z := z } l' r', p.value, ?_, ⟨c2, a2.is.max b2.is c3, hpv, .of_end (by
        have := computeOrM_mark c1
        rwa [a2.node.e, b2.node.e, min_self] at this)⟩⟩
    simp only [Tr.computeRob, a1, b1, bind, Except.bind, hp, hz]
  | implies s l r ih1 ih2 =>
    intro S E h0 hSE hF ha hn hu
    obtain ⟨l', v, a1, a2⟩ := ih1 h0 hSE hF.1 ha.2.1 hn.1 hu.1
    obtain ⟨r', w, b1, b2⟩ := ih2 h0 hSE hF.2 ha.2.2 hn.2 hu.2
    obtain ⟨z, c1, c2, _, c3⟩ := a2.node.not.or b2.node
    obtain ⟨p, hp, hpv⟩ := c2.front
    refine ⟨.implies { s with z := z } l' r', p.value, ?_, ⟨c2, a2.is.not.max b2.is c3, hpv, .of_end (by
        have := computeOrM_mark c1
        rwa [a2.node.not.e, b2.node.e, min_self] at this)⟩⟩
    simp only [Tr.computeRob, a1, b1, bind, Except.bind, hp, computeImpliesM, c1]
  | ev s I c ih =>
    intro S E h0 hSE hF ha hn hu
    obtain ⟨ha0, hab, hFc⟩ := hF
    set a := bound env.params I.beginStr I.begin with hadef
    set b := bound env.params I.stopStr I.stop with hbdef
    obtain ⟨hs, hac⟩ := ha
    rw [← hadef, ← hbdef] at hac
    have hE := h0.trans hSE
    by_cases hat : IsAtom c
    · have hu' := hu.2 hat
      cases c with
      | atom cs k l r =>
        have hcut : ∀ c, (some (E - b)) = some c → c ≤ E + b := by
          intro c hc
          have := Option.some.inj hc
          linarith
        obtain ⟨l', r', v, a1, a2⟩ := atom_again hL hsem hne (by linarith) (by linarith) hFc hac hcut
        obtain ⟨_, _, _, x, c1, c2, c3, c4⟩ := hac
        obtain ⟨y, d1, d2, _⟩ := c1.resize_any 0 (u := E - b) (w := E + b) (by linarith) (by linarith) le_rfl
        have hy : y = cs.z := by
          have := c3
          rw [Cut, d1] at this
          exact Except.ok.inj this
        rw [hy] at d2
        obtain ⟨zc, hzc, _⟩ := d2.resize_any 0 (u := E - b) (w := E + b) (by linarith) (by linarith) le_rfl
        obtain ⟨w, e1, e2, w', e3, e4, e5⟩ := c1.ev_cut (old := s.z) c2 ha0 hab hSE c3
          (fun h => keeps_cut (.grid c4) c1 c2 (fun hlt => hn.2 hlt h) ha0 hab hSE hu')
        obtain ⟨p, hp, hpv⟩ := e4.front
        have het : min w.endTime s.stop = E := by rw [e2, hs.2]; exact min_eq_right (by linarith)
        have hz : Tr.evRob env.B s a b cs.z = .ok (w', zc) := by
          unfold Tr.evRob
          simp only [e1, bind, Except.bind, het]
          rw [d2.e, hzc]
          simp only [hs.1, max_eq_right hSE, e3]
        refine ⟨.ev { s with z := w' } I (Tr.setZ zc (.atom cs k l' r')), p.value, ?_,
          ⟨e4, e5 hu', hpv, fun _ _ h => h.elim⟩⟩
        rw [Tr.computeRob]
        simp only [a1, bind, Except.bind, ivA_eq, ivB_eq, ← hadef, ← hbdef, Tr.st, hz, hp]
      | _ => exact hat.elim
    · obtain ⟨c', v, a1, a2⟩ := ih (S := S + a) (E := E + b) (by linarith)
        (by linarith) hFc (hac.uncut hat) hn.1 hu.1
      obtain ⟨z, b1, b2, z', b3, b4, b5⟩ := a2.node.evz (old := s.z) a2.is ha0 hab hSE
        (fun h h' => a2.mark.keeps a2.node a2.is (by linarith) (hn.2 h h'))
      obtain ⟨p, hp, hpv⟩ := b4.front
      obtain ⟨zc, hzc, _⟩ := a2.node.resize_any 0 (u := E - b) (w := E + b) (by linarith) (by linarith) le_rfl
      have het : min z.endTime s.stop = E := by rw [b2, hs.2]; exact min_eq_right (by linarith)
      have hz : Tr.evRob env.B s a b c'.st.z = .ok (z', zc) := by
        unfold Tr.evRob
        simp only [b1, bind, Except.bind, het]
        rw [a2.node.e, hzc]
        simp only [hs.1, max_eq_right hSE, b3]
      refine ⟨.ev { s with z := z' } I (Tr.setZ zc c'), p.value, ?_, ⟨b4, b5, hpv, fun _ _ h => h.elim⟩⟩
      simp only [Tr.computeRob, a1, bind, Except.bind, ivA_eq, ivB_eq, ← hadef, ← hbdef, hz, hp]
  | alw s I c ih =>
    intro S E h0 hSE hF ha hn hu
    obtain ⟨ha0, hab, hFc⟩ := hF
    set a := bound env.params I.beginStr I.begin with hadef
    set b := bound env.params I.stopStr I.stop with hbdef
    obtain ⟨hs, hac⟩ := ha
    rw [← hadef, ← hbdef] at hac
    have hE := h0.trans hSE
    obtain ⟨c', v, a1, a2⟩ := ih (S := S + a) (E := E + b) (by linarith)
      (by linarith) hFc hac hn.1 hu
    obtain ⟨z, b1, b2, z', b3, b4, b5⟩ := a2.node.alwz (old := s.z) a2.is ha0 hab hSE
      (fun h h' => a2.mark.keeps a2.node a2.is (by linarith) (hn.2 h h'))
    obtain ⟨p, hp, hpv⟩ := b4.front
    have het : min z.endTime s.stop = E := by rw [b2, hs.2]; exact min_eq_right (by linarith)
    have hz : Tr.alwRob env.B s a b c'.st.z = .ok z' := by
      unfold Tr.alwRob
      simp only [b1, bind, Except.bind, het]
      simp only [hs.1, max_eq_right hSE, b3]
    refine ⟨.alw { s with z := z' } I c', p.value, ?_, ⟨b4, b5, hpv, fun _ _ h => h.elim⟩⟩
    simp only [Tr.computeRob, a1, bind, Except.bind, ivA_eq, ivB_eq, ← hadef, ← hbdef, hz, hp]
  | _ => intro S E h0 hSE hF; exact hF.elim

end

/-- The tree that the three computations leave. -/
theorem run3_after {g : Globals} {m : Monitor} {n : ℕ} {T : Tr} {s e : ℚ}
    (h : Ready .LINEAR n g.B m T s e) (hk : AtomsOk m.data m.params s e T)
    (hn : NoLongSlope .LINEAR m.data m.params s e T) (hu : Untrimmed m.params s e T) :
    ∃ T' v lo up, Monitor.run3 (m.envOf g) (Monitor.prepare m.params s e T) = .ok (T', v, lo, up) ∧
      After (m.envOf g) none s e T' ∧ T'.forgetB false = T.forgetB false := by
  obtain ⟨hL, T1, v, a1, a2, a3⟩ := ready_prep h hk hn
  have hne : m.data ≠ [] := h.covers.facts.1
  have hF1 : IsFormula n m.params T1 := by rw [← isFormula_forget, a3, isFormula_forget]; exact h.shape
  obtain ⟨⟨T2, lo, b1, b2⟩, _⟩ := lu_first hL h.sem hne T1 h.start h.stop hF1 a2.after
    (by rw [← noLongSlope_forget, a3, noLongSlope_forget]; exact hn)
    (by rw [← untrimmed_forget, a3, untrimmed_forget]; exact hu)
  have hf2 : T2.forgetB false = T.forgetB false := ((Tr.forgetB_bounds T1).1 _ _ b1).trans a3
  have hF2 : IsFormula n m.params T2 := by rw [← isFormula_forget, hf2, isFormula_forget]; exact h.shape
  obtain ⟨_, ⟨T3, up, c1, c2⟩⟩ := lu_first hL h.sem hne T2 h.start h.stop hF2 b2.after
    (by rw [← noLongSlope_forget, hf2, noLongSlope_forget]; exact hn)
    (by rw [← untrimmed_forget, hf2, untrimmed_forget]; exact hu)
  refine ⟨T3, v, lo, up, ?_, c2.after, ((Tr.forgetB_bounds T2).2 _ _ c1).trans hf2⟩
  simp only [Monitor.run3, a1, b1, c1, bind, Except.bind]

/-- Evaluating the formula again, as `dump` does: its horizon set again, no reset. -/
theorem run3_second {g : Globals} {m : Monitor} {n : ℕ} {T T' : Tr} {s e : ℚ}
    (h : Ready .LINEAR n g.B m T s e) (hn : NoLongSlope .LINEAR m.data m.params s e T)
    (hu : Untrimmed m.params s e T) (ha : After (m.envOf g) none s e T')
    (hf : T'.forgetB false = T.forgetB false) :
    ∃ T'' v, (T'.setHorizon m.params T'.st.start T'.st.stop).computeRob (m.envOf g) = .ok (T'', v) ∧
      Node g.B T''.st.z s e ∧ Is T''.st.z s e (rob .LINEAR m.data m.params T) := by
  have hL : Lin (m.envOf g) n := ⟨h.interpol, h.rows, h.names⟩
  have hne : m.data ≠ [] := h.covers.facts.1
  rw [ha.spn.1, ha.spn.2, show T'.setHorizon m.params s e = T' from ha.horizon]
  obtain ⟨T'', v, h1, h2⟩ := rob_second hL h.sem hne T' h.start h.stop
    (by rw [← isFormula_forget, hf, isFormula_forget]; exact h.shape) ha
    (by rw [← noLongSlope_forget, hf, noLongSlope_forget]; exact hn)
    (by rw [← untrimmed_forget, hf, untrimmed_forget]; exact hu)
  refine ⟨T'', v, h1, h2.node, ?_⟩
  rw [← rob_forget, ← hf, rob_forget]
  exact h2.is

end STLRom
