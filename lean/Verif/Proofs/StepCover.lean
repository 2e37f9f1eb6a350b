import Verif.Proofs.StepPartialRun
import Verif.Proofs.PartialSound
import Verif.Proofs.StepRob
import Verif.Proofs.Mono

/-!
# Bounds with PREVIOUS interpolation: covering traces, and formulas of one temporal level
-/

namespace STLRom
open Signal Spec

section
variable {ip : Interpol} {n : ℕ} {P : Assoc ℚ} {B : ℚ}

/-- On a covering trace everything is known. -/
theorem known_covers {d : ℚ} (T : Tr) : ∀ {p : Bool} {S E : ℚ}, S ≤ E → IsFormula n P T →
    E + reach P T ≤ d → known d P p S E T = E := by
  induction T with
  | atom s k l r =>
    intro p S E h _ hd
    have hd : E + 0 ≤ d := hd
    show max S (min E d) = E
    rw [min_eq_left (by linarith), max_eq_right h]
  | not s c ih => exact fun {p} _ _ h hF hd => ih (p := !p) h hF hd
  | and s l r h1 h2 | or s l r h1 h2 =>
    intro p S E h hF hd
    have hd : E + max (reach P l) (reach P r) ≤ d := hd
    show min _ _ = E
    rw [h1 h hF.1 (by linarith [le_max_left (reach P l) (reach P r)]),
      h2 h hF.2 (by linarith [le_max_right (reach P l) (reach P r)]), min_self]
  | implies s l r h1 h2 =>
    intro p S E h hF hd
    have hd : E + max (reach P l) (reach P r) ≤ d := hd
    show min _ _ = E
    rw [h1 (p := !p) h hF.1 (by linarith [le_max_left (reach P l) (reach P r)]),
      h2 h hF.2 (by linarith [le_max_right (reach P l) (reach P r)]), min_self]
  | ev s I c ih | alw s I c ih =>
    intro p S E h ⟨ha, hab, hF⟩ hd
    have hd : E + (bound P I.stopStr I.stop + reach P c) ≤ d := hd
    simp only [known]
    rw [ih (by linarith) hF (by linarith)]
    have h1 : min E (E + bound P I.stopStr I.stop - bound P I.beginStr I.begin) = E := min_eq_left (by linarith)
    have h2 : max S (min E (E + bound P I.stopStr I.stop - bound P I.stopStr I.stop)) = E := by
      rw [add_sub_cancel_right, min_self, max_eq_right h]
    rw [h1, h2, ite_self]
  | _ => intro _ _ _ _ hF; exact hF.elim

/-- On a covering trace the bounds of the interval semantics are the robustness. -/
theorem bound_covers {D : List (List ℚ)} (T : Tr) : ∀ {p : Bool} {S E : ℚ}, S ≤ E → IsFormula n P T →
    E + reach P T ≤ lastTime D → ∀ t, S ≤ t → t ≤ E → robBound ip B D P p S E T t = rob ip D P T t := by
  induction T with
  | atom s k l r =>
    intro p S E h _ hd t _ _
    have hd : E + 0 ≤ lastTime D := hd
    simp only [robBound]
    rw [if_neg (by linarith)]
  | not s c ih =>
    intro p S E h hF hd t h1 h2
    show -_ = -_
    rw [ih (p := !p) h hF hd t h1 h2]
  | and s l r i1 i2 =>
    intro p S E h hF hd t h1 h2
    have hd : E + max (reach P l) (reach P r) ≤ lastTime D := hd
    show _ ⊓ _ = _ ⊓ _
    rw [i1 h hF.1 (by linarith [le_max_left (reach P l) (reach P r)]) t h1 h2,
      i2 h hF.2 (by linarith [le_max_right (reach P l) (reach P r)]) t h1 h2]
  | or s l r i1 i2 =>
    intro p S E h hF hd t h1 h2
    have hd : E + max (reach P l) (reach P r) ≤ lastTime D := hd
    show _ ⊔ _ = _ ⊔ _
    rw [i1 h hF.1 (by linarith [le_max_left (reach P l) (reach P r)]) t h1 h2,
      i2 h hF.2 (by linarith [le_max_right (reach P l) (reach P r)]) t h1 h2]
  | implies s l r i1 i2 =>
    intro p S E h hF hd t h1 h2
    have hd : E + max (reach P l) (reach P r) ≤ lastTime D := hd
    show -_ ⊔ _ = -_ ⊔ _
    rw [i1 (p := !p) h hF.1 (by linarith [le_max_left (reach P l) (reach P r)]) t h1 h2,
      i2 h hF.2 (by linarith [le_max_right (reach P l) (reach P r)]) t h1 h2]
  | ev s I c ih =>
    intro p S E h ⟨ha, hab, hF⟩ hd t h1 h2
    have hd : E + (bound P I.stopStr I.stop + reach P c) ≤ lastTime D := hd
    simp only [robBound, rob]
    rw [known_covers c (by linarith) hF (by linarith), if_neg (fun h => by linarith [h.2]),
      min_eq_left (by linarith)]
    exact iSup_congr fun r => iSup_congr fun hr =>
      ih (by linarith) hF (by linarith) r (by linarith [hr.1]) (by linarith [hr.2])
  | alw s I c ih =>
    intro p S E h ⟨ha, hab, hF⟩ hd t h1 h2
    have hd : E + (bound P I.stopStr I.stop + reach P c) ≤ lastTime D := hd
    simp only [robBound, rob]
    rw [known_covers c (by linarith) hF (by linarith), if_neg (fun h => by linarith [h.2]),
      min_eq_left (by linarith)]
    exact iInf_congr fun r => iInf_congr fun hr =>
      ih (by linarith) hF (by linarith) r (by linarith [hr.1]) (by linarith [hr.2])
  | _ => intro _ _ _ _ hF; exact hF.elim

theorem settles_congr {f f' : ℚ → EReal} {s e : ℚ} (h : ∀ t, s ≤ t → t ≤ e → f t = f' t)
    (hs : Settles f' s e) : Settles f s e := by
  intro hse
  obtain ⟨r, h1, h2, h3⟩ := hs hse
  refine ⟨r, h1, h2, fun t a b => ?_⟩
  rw [h t (h1.trans a) b, h e hse.le le_rfl, h3 t a b]

/-- On a covering trace the conditions for the bounds come down to those for the robustness. -/
theorem stepSound_covers {D : List (List ℚ)} (T : Tr) : ∀ {p : Bool} {S E : ℚ}, S ≤ E → IsFormula n P T →
    E + reach P T ≤ lastTime D → StepOk D P S E T → Untrimmed P S E T → StepSound B D P p S E T := by
  induction T with
  | atom s k l r =>
    intro p S E h _ hd _ _
    have hd : E + 0 ≤ lastTime D := hd
    exact ⟨Or.inr (by linarith), trivial, trivial, trivial⟩
  | not s c ih =>
    intro p S E h hF hd hk hu
    have := ih (p := !p) h hF hd hk hu
    exact ⟨this.1, this.2, this.3, this.4⟩
  | and s l r i1 i2 | or s l r i1 i2 =>
    intro p S E h hF hd hk hu
    have hd : E + max (reach P l) (reach P r) ≤ lastTime D := hd
    have hd1 : E + reach P l ≤ lastTime D := by linarith [le_max_left (reach P l) (reach P r)]
    have hd2 : E + reach P r ≤ lastTime D := by linarith [le_max_right (reach P l) (reach P r)]
    have j1 := i1 (p := p) h hF.1 hd1 hk.1 hu.1
    have j2 := i2 (p := p) h hF.2 hd2 hk.2.1 hu.2
    refine ⟨⟨j1.1, j2.1⟩, ⟨j1.2, j2.2⟩, ⟨j1.3, j2.3⟩, j1.4, j2.4, ?_⟩
    rw [known_covers l h hF.1 hd1, known_covers r h hF.2 hd2, min_self]
    exact ⟨settles_congr (bound_covers l h hF.1 hd1) hk.2.2.1, settles_congr (bound_covers r h hF.2 hd2) hk.2.2.2⟩
  | implies s l r i1 i2 =>
    intro p S E h hF hd hk hu
    have hd : E + max (reach P l) (reach P r) ≤ lastTime D := hd
    have hd1 : E + reach P l ≤ lastTime D := by linarith [le_max_left (reach P l) (reach P r)]
    have hd2 : E + reach P r ≤ lastTime D := by linarith [le_max_right (reach P l) (reach P r)]
    have j1 := i1 (p := !p) h hF.1 hd1 hk.1 hu.1
    have j2 := i2 (p := p) h hF.2 hd2 hk.2.1 hu.2
    refine ⟨⟨j1.1, j2.1⟩, ⟨j1.2, j2.2⟩, ⟨j1.3, j2.3⟩, j1.4, j2.4, ?_⟩
    rw [known_covers l h hF.1 hd1, known_covers r h hF.2 hd2, min_self]
    exact ⟨settles_congr (bound_covers l h hF.1 hd1) hk.2.2.1, settles_congr (bound_covers r h hF.2 hd2) hk.2.2.2⟩
  | ev s I c ih =>
    intro p S E h ⟨ha, hab, hF⟩ hd hk hu
    have hd : E + (bound P I.stopStr I.stop + reach P c) ≤ lastTime D := hd
    have hse : S + bound P I.beginStr I.begin ≤ E + bound P I.stopStr I.stop := by linarith
    have j := ih (p := p) hse hF (by linarith) hk hu.1
    refine ⟨j.1, ⟨j.2, ?_⟩, ⟨j.3, fun hc => ?_⟩, j.4, ?_⟩
    · rw [known_covers c hse hF (by linarith)]
      exact fun hl => by linarith
    · exact (sub_le_sub_right (min_le_right _ _) _).trans (hu.2 hc)
    · rw [known_covers c hse hF (by linarith)]
      exact fun _ hl hl' => by linarith
  | alw s I c ih =>
    intro p S E h ⟨ha, hab, hF⟩ hd hk hu
    have hd : E + (bound P I.stopStr I.stop + reach P c) ≤ lastTime D := hd
    have hse : S + bound P I.beginStr I.begin ≤ E + bound P I.stopStr I.stop := by linarith
    have j := ih (p := p) hse hF (by linarith) hk hu
    refine ⟨j.1, ⟨j.2, ?_⟩, j.3, j.4, ?_⟩
    · rw [known_covers c hse hF (by linarith)]
      exact fun hl => by linarith
    · rw [known_covers c hse hF (by linarith)]
      exact fun _ hl hl' => by linarith
  | _ => intro _ _ _ _ hF; exact hF.elim

/-- The atoms `StepOk` allows are those `AtomsStepTo` allows. -/
theorem stepOk_to {D : List (List ℚ)} (T : Tr) : ∀ {S E : ℚ}, StepOk D P S E T → AtomsStepTo D P S E T := by
  induction T with
  | atom => exact fun h => h.imp_right fun h => h.imp_right Or.inl
  | not s c ih => exact fun h => ih h
  | and s l r i1 i2 | or s l r i1 i2 | implies s l r i1 i2 => exact fun h => ⟨i1 h.1, i2 h.2.1⟩
  | ev s I c ih | alw s I c ih => exact fun h => ih h
  | _ => exact fun _ => trivial

theorem plain_stepTo {D : List (List ℚ)} : ∀ {T : Tr} (s e : ℚ), PlainAtoms T → AtomsStepTo D P s e T := by
  intro T
  induction T with
  | atom => exact fun s e h => Or.inl h
  | not _ c ih => exact fun s e h => ih s e h
  | ev _ _ c ih | alw _ _ c ih => exact fun s e h => ih _ _ h
  | and _ l r h1 h2 | or _ l r h1 h2 | implies _ l r h1 h2 => exact fun s e h => ⟨h1 s e h.1, h2 s e h.2⟩
  | untl => exact fun _ _ _ => trivial
  | _ => exact fun _ _ h => h.elim

theorem settles_point {f : ℚ → EReal} {s e : ℚ} (h : e ≤ s) : Settles f s e := fun h' => absurd h' (not_lt.2 h)

/-- With one level of temporal operators, at one time, no operand can jump where it matters. -/
theorem shallow_sound {D : List (List ℚ)} : ∀ {T : Tr} {i p : Bool} {s e : ℚ},
    IsFormula n P T → Shallow i T → (i = false → s = e) →
      StepBound B D P p s e T ∧ Uncut (lastTime D) P s e T := by
  intro T
  induction T with
  | atom => exact fun _ _ _ => ⟨trivial, trivial⟩
  | not _ c ih => intro i p s e hF h hi; exact ih (p := !p) hF h hi
  | and _ l r h1 h2 | or _ l r h1 h2 =>
    intro i p s e hF ⟨h, hl, hr⟩ hi
    obtain rfl := hi h
    have a1 := @h1 i p s s hF.1 hl fun _ => rfl
    have a2 := @h2 i p s s hF.2 hr fun _ => rfl
    have : min (known (lastTime D) P p s s l) (known (lastTime D) P p s s r) ≤ s :=
      (min_le_left _ _).trans (known_le_stop le_rfl hF.1)
    exact ⟨⟨a1.1, a2.1, settles_point this, settles_point this⟩, a1.2, a2.2⟩
  | implies _ l r h1 h2 =>
    intro i p s e hF ⟨h, hl, hr⟩ hi
    obtain rfl := hi h
    have a1 := @h1 i (!p) s s hF.1 hl fun _ => rfl
    have a2 := @h2 i p s s hF.2 hr fun _ => rfl
    have : min (known (lastTime D) P (!p) s s l) (known (lastTime D) P p s s r) ≤ s :=
      (min_le_left _ _).trans (known_le_stop le_rfl hF.1)
    exact ⟨⟨a1.1, a2.1, settles_point this, settles_point this⟩, a1.2, a2.2⟩
  | ev _ I c ih =>
    intro i p s e ⟨ha, hab, hF⟩ ⟨h, hc⟩ hi
    obtain rfl := hi h
    obtain ⟨h1, h2⟩ := ih (p := p) (s := s + bound P I.beginStr I.begin)
      (e := s + bound P I.stopStr I.stop) hF hc (fun h => nomatch h)
    refine ⟨⟨h1, fun _ _ hk _ => settles_point hk⟩, h2, fun _ => ?_⟩
    have := min_le_right (lastTime D - bound P I.beginStr I.begin) s
    linarith
  | alw _ I c ih =>
    intro i p s e ⟨ha, hab, hF⟩ ⟨h, hc⟩ hi
    obtain rfl := hi h
    obtain ⟨h1, h2⟩ := ih (p := p) (s := s + bound P I.beginStr I.begin)
      (e := s + bound P I.stopStr I.stop) hF hc (fun h => nomatch h)
    exact ⟨⟨h1, fun _ _ hk _ => settles_point hk⟩, h2⟩
  | _ => intro _ _ _ _ h; exact h.elim

end

section
variable {env : Env} {n : ℕ}

/-- Comparing the operands again adds nothing to the signal of the atom. -/
def Rested (n : ℕ) (D : List (List ℚ)) (T : Tr) : Prop := ∀ s k l r, T = .atom s k l r →
  EInv n D l ∧ EInv n D r ∧ s.z.samples ≠ [] ∧ s.z.endTime = l.st.z.endTime

/-- The computation of a bound leaves the robustness signal of the root alone. -/
theorem bnd_rested (hD : WellShaped n env.data) (hsem : env.sem = .SPACE) {T T' : Tr} {p : Bool} {v : ℚ}
    (hF : Settled n env.data T) (hc : Rested n env.data T) (h : bnd env p T = .ok (T', v)) :
    T'.st.z = T.st.z ∧ Rested n env.data T' := by
  cases T with
  | atom s k l r =>
    obtain ⟨h1, h2, h3, h4⟩ := hc s k l r rfl
    obtain ⟨l', v1, a1, a2, a3, a4⟩ := term_rerun (env := env) hD h1
    obtain ⟨r', v2, b1, b2, b3, b4⟩ := term_rerun (env := env) hD h2
    have hz : Tr.atomRob env k s.z l'.st.z r'.st.z = .ok s.z := by
      unfold Tr.atomRob
      rw [atomLoop_eq, appendSamples_skip env.ip h3, hsem]
      · show Except.ok _ = _
        rw [a4, ← h4]
      · intro p hp
        obtain ⟨q, hq, e⟩ := comb_time_mem (atomS_time k) _ _ p hp
        rw [e, h4, ← a4]
        exact a2.le q hq
    obtain ⟨q, hq⟩ := front_ok h3
    have hrun : Tr.computeRob env (.atom s k l r) = .ok (.atom s k l' r', q.value) := by
      simp only [Tr.computeRob, a1, b1, bind, Except.bind, hz, hq]
    have key : ∃ s', T' = .atom s' k l' r' ∧ s'.z = s.z := by
      cases p
      · simp only [bnd, Bool.false_eq_true, if_false, Tr.computeUp, hrun, bind_eq_ok, Prod.exists] at h
        obtain ⟨_, _, h5, z, _, _, _, h6⟩ := h
        simp only [Except.ok.injEq, Prod.mk.injEq] at h5 h6
        rw [← h6.1, ← h5.1]
        exact ⟨_, rfl, rfl⟩
      · simp only [bnd, if_true, Tr.computeLow, hrun, bind_eq_ok, Prod.exists] at h
        obtain ⟨_, _, h5, z, _, _, _, h6⟩ := h
        simp only [Except.ok.injEq, Prod.mk.injEq] at h5 h6
        rw [← h6.1, ← h5.1]
        exact ⟨_, rfl, rfl⟩
    obtain ⟨s', rfl, hs'⟩ := key
    refine ⟨hs', ?_⟩
    rintro s2 k2 l2 r2 e
    obtain ⟨rfl, rfl, rfl, rfl⟩ := Tr.atom.inj e
    exact ⟨a2, b2, by rw [hs']; exact h3, by rw [hs', h4, a4]⟩
  | not s c =>
    cases p <;> simp only [bnd, Bool.false_eq_true, if_false, if_true, Tr.computeUp, Tr.computeLow, bind_eq_ok,
      Prod.exists] at h <;> obtain ⟨_, _, _, h⟩ := h <;> split at h <;>
      simp only [bind_eq_ok, Except.ok.injEq, Prod.mk.injEq] at h <;> obtain ⟨_, _, rfl, _⟩ := h <;>
      exact ⟨rfl, fun _ _ _ _ e => nomatch e⟩
  | and s l r | or s l r | implies s l r =>
    cases p <;> simp only [bnd, Bool.false_eq_true, if_false, if_true, Tr.computeUp, Tr.computeLow, bind_eq_ok,
      Prod.exists] at h <;> obtain ⟨_, _, _, _, _, _, _, _, _, _, h⟩ := h <;>
      simp only [Except.ok.injEq, Prod.mk.injEq] at h <;> obtain ⟨rfl, _⟩ := h <;>
      exact ⟨rfl, fun _ _ _ _ e => nomatch e⟩
  | ev s I c | alw s I c =>
    cases p <;> simp only [bnd, Bool.false_eq_true, if_false, if_true, Tr.computeUp, Tr.computeLow, bind_eq_ok,
      Prod.exists] at h <;> obtain ⟨_, _, _, _, _, _, h⟩ := h <;>
      simp only [Except.ok.injEq, Prod.mk.injEq] at h <;> obtain ⟨rfl, _⟩ := h <;>
      exact ⟨rfl, fun _ _ _ _ e => nomatch e⟩
  | untl s l I r =>
    cases p <;> simp only [bnd, Bool.false_eq_true, if_false, if_true, Tr.computeUp, Tr.computeLow, bind_eq_ok,
      Prod.exists] at h <;> obtain ⟨_, _, _, h⟩ := h <;> split_ifs at h <;>
      first
      | (obtain ⟨rfl, _⟩ := Prod.mk.inj (Except.ok.inj h); exact ⟨rfl, fun _ _ _ _ e => nomatch e⟩)
      | (simp only [bind_eq_ok, Prod.exists] at h
         obtain ⟨_, _, _, h⟩ := h
         split_ifs at h
         · obtain ⟨rfl, _⟩ := Prod.mk.inj (Except.ok.inj h); exact ⟨rfl, fun _ _ _ _ e => nomatch e⟩
         · simp only [bind_eq_ok, Prod.exists] at h
           obtain ⟨_, _, _, h⟩ := h
           obtain ⟨rfl, _⟩ := Prod.mk.inj (Except.ok.inj h); exact ⟨rfl, fun _ _ _ _ e => nomatch e⟩)
  | _ => exact hF.elim

end

theorem covers_last {D : List (List ℚ)} {s e : ℚ} (h : Covers D s e) :
    e ≤ lastTime D := by
  obtain ⟨_, row, t, h1, h2, h3⟩ := h
  simp only [lastTime, h1, Option.bind_some, h2, Option.getD_some]
  exact h3

/-- With PREVIOUS interpolation the signal of the root after an evaluation is the robustness
signal. -/
theorem evalRob_step_signal {g : Globals} {m : Monitor} {n : ℕ} {T : Tr} {s e : ℚ}
    (h : Ready .PREVIOUS n g.B m T s e) (hk : StepOk m.data m.params s e T) :
    ∃ g' m' v z, m.evalRob g s e = (g', m', .ok v) ∧ m'.rob = v ∧ m'.getSignal = .ok z ∧ SNode g.B z s e ∧
      Is z s e (rob .PREVIOUS m.data m.params T) ∧ v = z.v (pl s) := by
  have hne : m.data ≠ [] := by
    obtain ⟨row, _, h1, _⟩ := h.covers.1
    rintro h2
    rw [h2] at h1
    cases h1
  have hL : Prev (m.envOf g) n := ⟨h.interpol, h.rows⟩
  have hB := within_nonneg T h.stop h.shape h.within
  have hL' : FeedP (m.envOf g) n := ⟨hL, h.sem, hne, hB⟩
  have hp : (Monitor.prepare m.params s e T).forgetB false = T.forgetB false :=
    Tr.forgetB_prepare (by simp [h.names]) s e T
  have hF0 := isFormula_prepare (P := m.params) T s e h.shape
  have hf := fresh_prepare m.params T s e
  set T0 := Monitor.prepare m.params s e T with hT0
  have hE := h.start.trans h.stop
  have hk0 : StepOk m.data m.params s e T0 := by rw [← stepOk_forget, hp, stepOk_forget]; exact hk
  have hw0 : AtomsWithin .PREVIOUS g.B m.data m.params s e T0 := by
    rw [← atomsWithin_forget, hp, atomsWithin_forget]; exact h.within
  obtain ⟨T1, v, a1, a2⟩ := rob_prev hL h.sem T0 (S := s) (E := e) h.start h.stop
    (by rw [← reach_forget, hp, reach_forget]; exact h.covers) hF0 hf hk0 hw0
  obtain ⟨T1', v', a1', a3⟩ := rob_any (env := m.envOf g) h.rows h.sem hne T0 hE hF0 hf
  rw [a1] at a1'
  obtain ⟨rfl, rfl⟩ := Prod.mk.inj (Except.ok.inj a1')
  have hT1 : T1.forgetB false = T.forgetB false := (Tr.forgetB_computeRob T0 a1).trans hp
  have hF1 : IsFormula n m.params T1 := by
    rw [← isFormula_forget, hT1, isFormula_forget]; exact h.shape
  obtain ⟨hS, _⟩ := rob_settles (env := m.envOf g) h.rows T0 hF0.stl hf a1
  have hlast := covers_last h.covers
  have hr := reach_nonneg h.shape
  have hrest : Rested n m.data T1 := by
    rintro st k l r rfl
    obtain ⟨hA, _⟩ := step_first hL' T0 h.start h.stop h.covers.1 hF0 hf (stepOk_to T0 hk0)
      (within_to (fun _ _ _ => rfl) T0 hF0 hw0) _ v a1
    obtain ⟨b1, x, b2, _, _, b3⟩ := hA (show s ≤ lastTime m.data by linarith [h.stop])
    obtain rfl : st.z = x := b3
    exact ⟨hS.2.1, hS.2.2, b2.wf.ne, by rw [b2.e, b1]⟩
  obtain ⟨⟨T2, lo, b1, _⟩, ⟨T2', up, c1, _⟩⟩ := lu_any (env := m.envOf g) h.rows h.sem hne T1 hE hF1 a3
  obtain ⟨hS2, hkk⟩ := bnd_keeps (env := m.envOf g) h.rows T1 hS (b := true) b1
  obtain ⟨d1, d2⟩ := bnd_rested (env := m.envOf g) (p := true) h.rows h.sem hS hrest b1
  rcases seen_cases hkk.seen with ⟨x, e1, _⟩ | ⟨U', V1, w, e1, e2, _⟩
  · rw [show bnd (m.envOf g) (!true) T1 = Tr.computeUp (m.envOf g) T1 from rfl, c1] at e1; cases e1
  · have hr : Monitor.run3 (m.envOf g) T0 = .ok (V1, v, lo, w) := by
      simp only [Monitor.run3, a1, b1, bind, Except.bind]
      rw [show Tr.computeUp (m.envOf g) T2 = .ok (V1, w) from e2]
    obtain ⟨f1, _⟩ := bnd_rested (env := m.envOf g) (p := false) h.rows h.sem hS2 d2 e2
    refine ⟨{ g with sem := m.sem, ip := m.ip },
      { m with formula := some V1, rob := v, lowerRob := lo, upperRob := w }, v, T1.st.z, ?_, rfl, ?_, a2.node, ?_, a2.val⟩
    · unfold Monitor.evalRob
      rw [h.formula]
      simp only
      rw [show Monitor.run3 ⟨g.B, m.sem, m.ip, m.data, m.params⟩ (Monitor.prepare m.params s e T) = _ from hr]
    · show Except.ok V1.st.z = _
      rw [f1, d1]
    · intro t h1 h2
      have := a2.is t h1 h2
      rw [show rob .PREVIOUS (m.envOf g).data (m.envOf g).params T0 t = rob .PREVIOUS m.data m.params T t from by
        rw [← rob_forget, hp, rob_forget]; rfl] at this
      exact this

/-- Bounds on the rows bound a comparison throughout. -/
theorem prev_abs {n : ℕ} {K : ℚ} {D : List (List ℚ)} {P : Assoc ℚ}
    {s : ℚ} (hs : ∀ row, D.head? = some row → rowTime row ≤ s) (hne : D ≠ []) {k : Cmp} {l r : Tr}
    (ha : IsExpr n l ∧ IsExpr n r)
    (hK : ∀ row ∈ D, |margin k (rowExpr P row l) (rowExpr P row r)| ≤ K) (t : ℚ) (ht : s ≤ t) :
    -K ≤ margin k (expr .PREVIOUS D P l t) (expr .PREVIOUS D P r t) ∧
      margin k (expr .PREVIOUS D P l t) (expr .PREVIOUS D P r t) ≤ K := by
  obtain ⟨row, i, j⟩ := mixAt_prev t D hne fun row hr => (hs row hr).trans ht
  rw [expr_prevRow j ha.1, expr_prevRow j ha.2]
  exact abs_le.1 (hK row (List.mem_of_getElem? i))

end STLRom
