import Verif.Proofs.UntilRun
import Verif.Proofs.StepPartialRun
import Verif.Spec.UntilStep

/-!
# Evaluating `until` over two atoms with PREVIOUS interpolation
-/

namespace STLRom
open Signal Spec

/-- From one-sided points to the robustness of `until` over step functions: the value at the end
of the window does not count. -/
theorem Wnt.sup_step {x y : Signal} {B v s lo e : ℚ} {f g : ℚ → EReal} (hx : SNode B x s e)
    (hy : SNode B y lo e) (hf : Is x s e f) (hg : Is y lo e g)
    (h : Wnt x.v y.v (pl s) (pl lo) (mi e) v) :
    ⨆ u ∈ Set.Ico lo e, g u ⊓ ⨅ w ∈ Set.Icc s u, f w = er v := by
  refine le_antisymm (iSup₂_le fun u hu => ?_) ?_
  · by_contra hcon
    obtain ⟨q, h1, h2⟩ := EReal.lt_iff_exists_rat_btwn.1 (not_le.1 hcon)
    have h1' : v < q := by
      unfold er at h1
      exact_mod_cast h1
    have h2' : er q < g u ⊓ ⨅ w ∈ Set.Icc s u, f w := by unfold er; exact_mod_cast h2
    obtain ⟨h3, h4⟩ := lt_inf_iff.1 h2'
    have hyq : q ≤ y.v (pl u) := by
      rw [hg u hu.1 hu.2.le] at h3
      exact er_le.1 h3.le
    have hxq : ∀ w, s ≤ w → w ≤ u → q ≤ x.v (pl w) := by
      intro w a b
      have := h4.le.trans (iInf₂_le w ⟨a, b⟩)
      rw [hf w a (b.trans hu.2.le)] at this
      exact er_le.1 this
    have hxp : ∀ ρ, pl s ≤ ρ → ρ ≤ pl u → q ≤ x.v ρ := by
      intro ρ a b
      rcases Pt.cases ρ with c | c
      · rw [c] at a b ⊢
        exact hxq _ (by simpa using a) (by simpa using b)
      · rw [c] at a b ⊢
        rw [pl_le_mi] at a
        rw [le_pl_iff, mi_time] at b
        obtain ⟨r, r1, r2, r3⟩ := hx.left le_rfl a (b.trans hu.2.le)
        rw [← r3 r le_rfl r2]
        exact hxq _ r1 (r2.le.trans b)
    exact absurd (h.2 (pl u) q (by simpa using hu.1) (by simpa using hu.2) hyq hxp) (not_le.2 h1')
  · obtain ⟨σ, h1, h2, h3, h4⟩ := h.1
    have key : ∃ u, lo ≤ u ∧ u < e ∧ v ≤ y.v (pl u) ∧ ∀ w, s ≤ w → w ≤ u → v ≤ x.v (pl w) := by
      rcases Pt.cases σ with c | c
      · rw [c] at h1 h2 h3 h4
        exact ⟨σ.time, by simpa using h1, by simpa using h2, h3,
          fun w a b => h4 (pl w) (by simpa using a) (by simpa using b)⟩
      · rw [c] at h1 h2 h3 h4
        rw [pl_le_mi] at h1
        have h2' : σ.time ≤ e := by simpa using h2
        obtain ⟨r, r1, r2, r3⟩ := hy.left le_rfl h1 h2'
        refine ⟨r, r1, r2.trans_le h2', by rw [r3 r le_rfl r2]; exact h3, fun w a b => ?_⟩
        exact h4 (pl w) (by simpa using a) (by simpa using b.trans_lt r2)
    obtain ⟨u, k1, k2, k3, k4⟩ := key
    refine le_iSup₂_of_le u ⟨k1, k2⟩ (le_inf ?_ (le_iInf₂ fun w hw => ?_))
    · rw [hg _ k1 k2.le, er_le]; exact k3
    · rw [hf _ hw.1 (hw.2.trans k2.le), er_le]; exact k4 w hw.1 hw.2

section
variable {env : Env} {n : ℕ}

/-- An atom of an `until`, after `compute_robustness` with PREVIOUS interpolation. -/
theorem atom_step_operand (hL : FeedP env n) {S E : ℚ} {T : Tr} (hat : IsAtom T) (h0 : 0 ≤ S) (hSE : S ≤ E)
    (hfirst : ∃ row t, env.data.head? = some row ∧ row.head? = some t ∧ t ≤ S)
    (hd : S ≤ lastTime env.data) (hF : IsFormula n env.params T) (hf : Fresh env.params S E T)
    (hk : AtomsStepTo env.data env.params S E T)
    (hB : AtomsWithinTo .PREVIOUS env.B env.data env.params S E T) :
    ∃ T' w, Tr.computeRob env T = .ok (T', w) ∧
      SNode env.B T'.st.z S (min E (lastTime env.data)) ∧ Flat T'.st.z.samples ∧
      Is T'.st.z S (min E (lastTime env.data)) (rob .PREVIOUS env.data env.params T) ∧
      ∀ p, ∃ U, bnd env p T' = .ok (U, T'.st.z.v (pl S)) ∧ pick p U.st = T'.st.z := by
  cases T with
  | atom s k l r =>
    obtain ⟨T', w, a1, _⟩ := rob_any hL.prev.shape hL.sem hL.ne (.atom s k l r) (h0.trans hSE) hF hf
    obtain ⟨k1, k2, k3⟩ := atom_step_first hL h0 hSE hfirst hF hf hk hB a1 hd
    obtain ⟨hS, _⟩ := rob_settles (env := env) hL.prev.shape (.atom s k l r) hF.stl hf a1
    obtain ⟨c1, _⟩ := step_first hL (.atom s k l r) h0 hSE hfirst hF hf hk hB T' w a1
    refine ⟨T', w, a1, k1, k2, k3, fun p => ?_⟩
    have hrun := a1
    simp only [Tr.computeRob] at hrun
    obtain ⟨⟨l', _⟩, _, hx⟩ := bind_eq_ok.1 hrun
    obtain ⟨⟨r', _⟩, _, hx⟩ := bind_eq_ok.1 hx
    obtain ⟨z, hz, hx⟩ := bind_eq_ok.1 hx
    obtain ⟨q, _, hx⟩ := bind_eq_ok.1 hx
    obtain ⟨rfl, _⟩ := Prod.mk.inj (Except.ok.inj hx)
    obtain ⟨U, q', d1, d2, d3⟩ := atom_step_reached hL (p := p) (s := { s with z := z }) (le_min hSE hd) hf.1.1 hS (c1 hd).1 k1.wf.ne k1.e
    obtain ⟨p', e1, e2⟩ := k1.front
    have : q' = p' := Except.ok.inj (d3.symm.trans e1)
    subst this
    exact ⟨U, by rw [d1, e2], d2⟩
  | _ => exact hat.elim

/-- `compute_timed_until` on two atoms that are step functions. -/
theorem timedUntil_steps {B s a b d : ℚ} {old x y : Signal} {f g : ℚ → EReal} (h0 : 0 ≤ s) (ha : 0 ≤ a)
    (hab : a < b) (hd : s + a < d) (hlate : b ≤ d → s + b ≤ d)
    (hx : SNode B x s (min (s + b) d)) (hy : SNode B y (s + a) (min (s + b) d)) (tx : Flat x.samples)
    (fx : Is x s (min (s + b) d) f) (gy : Is y (s + a) (min (s + b) d) g) :
    ∃ z, computeTimedUntil B old x y a b = .ok z ∧ z.beginTime = s ∧
      z.endTime = min (s + b) d - a ∧ WF z ∧
      ⨆ u ∈ Set.Ico (s + a) (min (s + b) d), g u ⊓ ⨅ w ∈ Set.Icc s u, f w = er (z.v (pl s)) := by
  set e := min (s + b) d with he
  have hlt : s + a < e := lt_min (by linarith) hd
  have hmin : min x.endTime y.endTime = e := by rw [hx.e, hy.e, min_self]
  obtain ⟨z, z1, z2, z3, z4, z5⟩ := computeTimedUntil_first (B := B) (old := old) (a := a) (b := b)
    hx.wf hy.wf hx.sinc hy.sinc
    (fun σ h1 h2 => hx.bdp (by rw [← hx.b]; exact h1) (by rw [← hx.e]; exact h2))
    (fun σ h1 h2 => (hy.bdp (by rw [← hy.b]; exact h1) (by rw [← hy.e]; exact h2)).1)
    (fun p hp h _ => absurd (tx p hp) h.ne') ha hab (by rw [hx.b]; exact h0)
    (by rw [hy.b, hx.b]) (by rw [hmin, hx.b]; exact hlt)
    (fun h => by
      rw [hmin] at h
      rw [hx.b, hy.e]
      exact le_min le_rfl (hlate (h.trans (min_le_right _ _))))
  rw [hmin, hx.b, min_eq_right (by rw [mi_le_pl]; exact min_le_left _ _)] at z5
  exact ⟨z, z1, by rw [z2, hx.b], by rw [z3, hmin], z4, z5.sup_step hx hy fx gy⟩

end

/-- What an evaluation of `until` over two atoms at one time returns with PREVIOUS
interpolation: the end of the window does not count. -/
theorem evalRob_until_step {g : Globals} {m : Monitor} {n : ℕ} {st : St} {l r : Tr} {I : Ival} {t a b : ℚ}
    (h : BegunUntilStep n g.B m st l I r a b t) :
    ∃ g' m' v, m.evalRob1 g t = (g', m', .ok v) ∧
      ⨆ u ∈ Set.Ico (t + a) (min (t + b) (lastTime m.data)), rob .PREVIOUS m.data m.params r u ⊓
        ⨅ w ∈ Set.Icc t u, rob .PREVIOUS m.data m.params l w = er v ∧
      ((rob .PREVIOUS m.data m.params r (t + a) = er (-g.B) → m'.lowerRob = -g.B) ∧
        (rob .PREVIOUS m.data m.params r (t + a) ≠ er (-g.B) → m'.lowerRob = v)) ∧
      ((rob .PREVIOUS m.data m.params l t = er g.B ∨ rob .PREVIOUS m.data m.params r (t + a) = er g.B →
          m'.upperRob = g.B) ∧
        (¬ (rob .PREVIOUS m.data m.params l t = er g.B ∨
            rob .PREVIOUS m.data m.params r (t + a) = er g.B) → m'.upperRob = v)) := by
  obtain ⟨ha, hab⟩ := h.window
  have h0 := h.start
  have hreach := h.reached
  have hne : m.data ≠ [] := by
    obtain ⟨row, _, h1, _⟩ := h.first
    rintro h2
    rw [h2] at h1
    cases h1
  have hL : FeedP (m.envOf g) n := ⟨⟨h.interpol, h.rows⟩, h.sem, hne, h.big⟩
  have hp : ∀ s e T, (Monitor.prepare m.params s e T).forgetB false = T.forgetB false := fun s e T =>
    Tr.forgetB_prepare (by simp [h.names]) s e T
  have atom_forget : ∀ {T : Tr} {s e : ℚ}, IsAtom T → IsAtom (Monitor.prepare m.params s e T) := by
    intro T s e h
    rw [← isAtom_forget, hp, isAtom_forget]; exact h
  have rob_prep : ∀ {T : Tr} {s e : ℚ}, rob .PREVIOUS m.data m.params (Monitor.prepare m.params s e T) =
      rob .PREVIOUS m.data m.params T := by
    intro T s e
    rw [← rob_forget, hp, rob_forget]
  obtain ⟨l1, wl, x1, x2, x3, x4, x5⟩ := atom_step_operand (env := m.envOf g) hL
    (T := Monitor.prepare m.params t (t + b) l)
    (atom_forget h.atoms.1) h0 (by linarith : t ≤ t + b) h.first
    (show t ≤ lastTime m.data by linarith) (isFormula_prepare (P := m.params) l _ _ h.shape.1)
    (fresh_prepare m.params l _ _)
    (by show AtomsStepTo m.data m.params _ _ _; rw [← atomsStepTo_forget, hp, atomsStepTo_forget]
        exact h.okLeft)
    (by show AtomsWithinTo .PREVIOUS g.B m.data m.params _ _ _
        rw [← atomsWithinTo_forget, hp, atomsWithinTo_forget]; exact h.withinLeft)
  obtain ⟨r1, wr, y1, y2, y3, y4, y5⟩ := atom_step_operand (env := m.envOf g) hL
    (T := Monitor.prepare m.params (t + a) (t + b) r)
    (atom_forget h.atoms.2) (by linarith : 0 ≤ t + a) (by linarith : t + a ≤ t + b)
    (by obtain ⟨row, t', k1, k2, k3⟩ := h.first; exact ⟨row, t', k1, k2, by linarith⟩)
    (show t + a ≤ lastTime m.data from hreach.le)
    (isFormula_prepare (P := m.params) r _ _ h.shape.2)
    (fresh_prepare m.params r _ _)
    (by show AtomsStepTo m.data m.params _ _ _; rw [← atomsStepTo_forget, hp, atomsStepTo_forget]
        exact h.okRight)
    (by show AtomsWithinTo .PREVIOUS g.B m.data m.params _ _ _
        rw [← atomsWithinTo_forget, hp, atomsWithinTo_forget]; exact h.withinRight)
  have x4' : Is l1.st.z t (min (t + b) (lastTime m.data)) (rob .PREVIOUS m.data m.params l) := by
    rw [← rob_prep (T := l) (s := t) (e := t + b)]; exact x4
  have y4' : Is r1.st.z (t + a) (min (t + b) (lastTime m.data)) (rob .PREVIOUS m.data m.params r) := by
    rw [← rob_prep (T := r) (s := t + a) (e := t + b)]; exact y4
  obtain ⟨z, z1, z2, z3, z4, z5⟩ := timedUntil_steps (old := .empty) h0 ha hab hreach h.timely
    x2 y2 x3 x4' y4'
  have hlt : t + a < min (t + b) (lastTime m.data) := lt_min (by linarith) hreach
  exact evalRob_until_of h.formula h.rows h.shape.1 h.shape.2 h.opens h.closes h0 ha hlt
    (S := Set.Ico (t + a) (min (t + b) (lastTime m.data))) ⟨le_rfl, hlt⟩ (fun u hu => by linarith [hu.1])
    x1 (fun u h1 h2 => (x2.bd u h1 h2).1) x4' x5 y1 (fun u h1 h2 => (y2.bd u h1 h2).1) y4' y5
    z1 z2 (by rw [z3]; linarith) z4 z5

end STLRom
