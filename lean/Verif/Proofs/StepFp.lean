import Mathlib.Data.Set.Finite.Lemmas
import Verif.Proofs.DoubleNear
import Verif.Proofs.GridRun
import Verif.Proofs.StepRob

/-!
# Step signals in doubles

When the times need no rounding, evaluation in doubles rounds nothing but the margins of the
comparisons.  Rounding is monotone and odd, so it commutes with all that follows.
-/

namespace STLRom
open Signal Spec

theorem SNode.values {B : ℚ} {z : Signal} {S E : ℚ} (h : SNode B z S E) (hSE : S < E) {t : ℚ} (ht : S ≤ t) :
    ∃ p ∈ z.samples, z.v (pl t) = p.value := by
  have hv := h.wf.val (τ := pl t) (by rw [h.b]; simpa using ht)
  rcases hc : cur z.samples (pl t) with _ | p
  · simp [val, hc] at hv
  · have hp := (cur_mem hc).1
    refine ⟨p, hp, ?_⟩
    simp only [val, hc, Option.map_some, Option.some.injEq] at hv
    rw [← hv, Sample.valueAt, h.flat hSE p hp]
    simp

/-- A step signal attains its supremum. -/
theorem SNode.attains {B : ℚ} {z : Signal} {S E : ℚ} (h : SNode B z S E) {u w : ℚ} (hu : S ≤ u) (huw : u ≤ w)
    (hw : w ≤ E) : ∃ r, u ≤ r ∧ r ≤ w ∧ ∀ t, u ≤ t → t ≤ w → z.v (pl t) ≤ z.v (pl r) := by
  rcases (hu.trans (huw.trans hw)).lt_or_eq with hSE | hSE
  · have hf : ((fun t => z.v (pl t)) '' Set.Icc u w).Finite := by
      refine Set.Finite.subset (s := {x | x ∈ z.samples.map Sample.value}) (List.finite_toSet _) ?_
      rintro x ⟨t, ht, rfl⟩
      obtain ⟨p, hp, e⟩ := h.values hSE (hu.trans ht.1)
      exact List.mem_map.2 ⟨p, hp, e.symm⟩
    obtain ⟨x, ⟨r, hr, rfl⟩, hmax⟩ := Set.exists_max_image _ id hf ⟨_, ⟨u, ⟨le_rfl, huw⟩, rfl⟩⟩
    exact ⟨r, hr.1, hr.2, fun t a b => hmax _ ⟨t, ⟨a, b⟩, rfl⟩⟩
  · refine ⟨u, le_rfl, huw, fun t a b => ?_⟩
    obtain rfl : t = u := by linarith
    exact le_rfl

namespace Fp

/-- A rounding that respects the order and the sign. -/
structure Nice (rd : ℚ → ℚ) (B : ℚ) : Prop where
  mono : Monotone rd
  odd : ∀ x, rd (-x) = -rd x
  idem : ∀ x, rd (rd x) = rd x
  big : rd B = B

theorem Nice.zero {rd : ℚ → ℚ} {B : ℚ} (h : Nice rd B) : rd 0 = 0 := by
  have := h.odd 0
  rw [neg_zero] at this
  linarith

theorem Nice.within {rd : ℚ → ℚ} {B x : ℚ} (h : Nice rd B) (h1 : -B ≤ x) (h2 : x ≤ B) :
    -B ≤ rd x ∧ rd x ≤ B := by
  refine ⟨?_, h.big ▸ h.mono h2⟩
  have := h.mono h1
  rwa [h.odd, h.big] at this

/-- The signal `z` has the rounded values of `f`. -/
def Rounds (rd : ℚ → ℚ) (z : Signal) (S E : ℚ) (f : ℚ → EReal) : Prop :=
  ∀ t, S ≤ t → t ≤ E → ∃ x, f t = er x ∧ z.v (pl t) = rd x

section
variable {rd : ℚ → ℚ} {B : ℚ} {z : Signal} {S E : ℚ} {f : ℚ → EReal}

theorem Rounds.neg (hn : Nice rd B) (h : Rounds rd z S E f) : Rounds rd (computeNot z) S E (fun t => -f t) := by
  intro t a b
  obtain ⟨x, e1, e2⟩ := h t a b
  exact ⟨-x, by show -f t = _; rw [e1, er_neg], by rw [v_not, e2, hn.odd]⟩

theorem Rounds.settled (h : Rounds rd z S E f) (hN : SNode B z S E) (hs : Settles f S E) (hSE : S < E) :
    z.v (mi E) = z.v (pl E) := by
  refine hN.settled (f := fun t => er (z.v (pl t))) (fun t _ _ => rfl) (fun h' => ?_) hSE
  obtain ⟨r, r1, r2, r3⟩ := hs h'
  refine ⟨r, r1, r2, fun t a b => ?_⟩
  obtain ⟨x, e1, e2⟩ := h t (r1.trans a) b
  obtain ⟨y, k1, k2⟩ := h E h'.le le_rfl
  have := r3 t a b
  rw [e1, k1] at this
  show er _ = er _
  rw [e2, k2, er_inj this]

theorem Rounds.inf {x y : Signal} {f' : ℚ → EReal} (hn : Nice rd B) (h1 : Rounds rd x S E f) (h2 : Rounds rd y S E f')
    (hz : ∀ t, S ≤ t → t ≤ E → z.v (pl t) = min (x.v (pl t)) (y.v (pl t))) :
    Rounds rd z S E (fun t => min (f t) (f' t)) := by
  intro t a b
  obtain ⟨u, e1, e2⟩ := h1 t a b
  obtain ⟨w, k1, k2⟩ := h2 t a b
  refine ⟨min u w, ?_, ?_⟩
  · show min (f t) (f' t) = _
    rw [e1, k1]
    exact (Monotone.map_min (f := er) fun _ _ h => er_le.2 h).symm
  · rw [hz t a b, e2, k2, hn.mono.map_min]

theorem Rounds.sup {x y : Signal} {f' : ℚ → EReal} (hn : Nice rd B) (h1 : Rounds rd x S E f) (h2 : Rounds rd y S E f')
    (hz : ∀ t, S ≤ t → t ≤ E → z.v (pl t) = max (x.v (pl t)) (y.v (pl t))) :
    Rounds rd z S E (fun t => max (f t) (f' t)) := by
  intro t a b
  obtain ⟨u, e1, e2⟩ := h1 t a b
  obtain ⟨w, k1, k2⟩ := h2 t a b
  refine ⟨max u w, ?_, ?_⟩
  · show max (f t) (f' t) = _
    rw [e1, k1]
    exact (Monotone.map_max (f := er) fun _ _ h => er_le.2 h).symm
  · rw [hz t a b, e2, k2, hn.mono.map_max]

/-- The supremum of rounded values is the rounded supremum, where it is attained (`y` is the step
signal of exact arithmetic). -/
theorem Rounds.ev {x y : Signal} {a b : ℚ} (hn : Nice rd B) (hab : a ≤ b) (hy : SNode B y (S + a) (E + b))
    (hyf : Is y (S + a) (E + b) f) (h : Rounds rd x (S + a) (E + b) f)
    (hz : Is z S E (fun t => ⨆ r ∈ Set.Icc (t + a) (t + b), er (x.v (pl r)))) :
    Rounds rd z S E (fun t => ⨆ r ∈ Set.Icc (t + a) (t + b), f r) := by
  intro t c d
  obtain ⟨r, r1, r2, r3⟩ := hy.attains (u := t + a) (w := t + b) (by linarith) (by linarith) (by linarith)
  obtain ⟨q, q1, q2⟩ := h r (by linarith) (by linarith)
  have hq : q = y.v (pl r) := by
    have := hyf r (by linarith) (by linarith)
    rw [q1] at this
    exact er_inj this
  have hle : ∀ s, t + a ≤ s → s ≤ t + b → ∃ p, f s = er p ∧ x.v (pl s) = rd p ∧ p ≤ q := by
    intro s s1 s2
    obtain ⟨p, p1, p2⟩ := h s (by linarith) (by linarith)
    have := hyf s (by linarith) (by linarith)
    rw [p1] at this
    exact ⟨p, p1, p2, by rw [er_inj this, hq]; exact r3 s s1 s2⟩
  refine ⟨q, le_antisymm (iSup₂_le fun s hs => ?_) (le_iSup₂_of_le r ⟨r1, r2⟩ q1.ge), ?_⟩
  · obtain ⟨p, p1, p2, p3⟩ := hle s hs.1 hs.2
    rw [p1, er_le]; exact p3
  · apply er_inj
    rw [← hz t c d]
    refine le_antisymm (iSup₂_le fun s hs => ?_) (le_iSup₂_of_le r ⟨r1, r2⟩ (by rw [q2]))
    obtain ⟨p, p1, p2, p3⟩ := hle s hs.1 hs.2
    rw [p2, er_le]; exact hn.mono p3

theorem Rounds.alw {x y : Signal} {a b : ℚ} (hn : Nice rd B) (hab : a ≤ b) (hy : SNode B y (S + a) (E + b))
    (hyf : Is y (S + a) (E + b) f) (h : Rounds rd x (S + a) (E + b) f)
    (hz : Is z S E (fun t => ⨅ r ∈ Set.Icc (t + a) (t + b), er (x.v (pl r)))) :
    Rounds rd z S E (fun t => ⨅ r ∈ Set.Icc (t + a) (t + b), f r) := by
  have e : ∀ (g : ℚ → EReal) (t : ℚ), -(⨆ r ∈ Set.Icc (t + a) (t + b), -g r) = ⨅ r ∈ Set.Icc (t + a) (t + b), g r := by
    intro g t
    simp only [neg_sup_ereal, neg_neg]
  have key := Rounds.ev (z := computeNot z) hn hab hy.not hyf.not (h.neg hn) (by
    have := hz.not
    intro t c d
    rw [← this t c d]
    simp only [← e, neg_neg, v_not, er_neg])
  have := key.neg hn
  rw [computeNot_computeNot] at this
  simpa only [e] using this

end

/-- The loop of the atom appends the rounded margins. -/
def atomR (rd : ℚ → ℚ) (k : Cmp) (p q : Sample) : Sample :=
  ⟨p.time, rd (margin k p.value q.value), 0⟩

theorem atomLoop_round (rd : ℚ → ℚ) (k : Cmp) : ∀ (l r : List Sample) (z : Signal),
    atomLoop rd .PREVIOUS k z l r = appendSamples .PREVIOUS z (comb (atomR rd k) l r)
  | [], r, z => by cases r <;> rfl
  | p :: l, [], z => rfl
  | p :: l, q :: r, z => by
    have ih := atomLoop_round rd k l r
    cases k
    · show (appendSample rd .PREVIOUS z p.time (rd (q.value - p.value)) (rd (q.derivative - p.derivative)) >>=
        fun z' => atomLoop rd .PREVIOUS .less z' l r) = _
      simp only [ih, append_previous]
      rfl
    · show (appendSample rd .PREVIOUS z p.time (rd (p.value - q.value)) (rd (p.derivative - q.derivative)) >>=
        fun z' => atomLoop rd .PREVIOUS .greater z' l r) = _
      simp only [ih, append_previous]
      rfl

theorem mem_comb {g : Sample → Sample → Sample} {p : Sample} : ∀ (l r : List Sample), p ∈ comb g l r →
    ∃ x y, p = g x y
  | [], _, h => by simp [comb] at h
  | _ :: _, [], h => by simp [comb] at h
  | a :: l, b :: r, h => by
    rcases List.mem_cons.1 h with h | h
    · exact ⟨a, b, h⟩
    · exact mem_comb l r h

/-- The outcome of evaluating a formula node in doubles. -/
structure FpOutcome (rd : ℚ → ℚ) (G : ℚ → Prop) (env : Env) (S E w : ℚ) (T T' : Tr) (r : ℚ) : Prop where
  node : SNode env.B T'.st.z S E
  sg : SG rd G w T'.st.z
  is : Rounds rd T'.st.z S E (rob .PREVIOUS env.data env.params T)
  val : r = T'.st.z.v (pl S)

section
variable {rd : ℚ → ℚ} {env : Env} {n : ℕ} {R : ℚ} {G : ℚ → Prop}

theorem atom_prev_fp (hcalc : Calc rd env.B R G) (hn : Nice rd env.B) (hL : Prev env n) (hsem : env.sem = .SPACE)
    {S E h : ℚ} (hc : Covers env.data S E)
    (hE : 0 ≤ E) (hSE : S ≤ E) {s : St} {k : Cmp} {l r : Tr}
    (hF : IsFormula n env.params (.atom s k l r)) (hf : Fresh env.params S E (.atom s k l r))
    (hk : IsLeaf l ∧ IsLeaf r ∨ S = E ∨ RowAt env.data E)
    (hB : AtomsWithin .PREVIOUS env.B env.data env.params S E (.atom s k l r))
    (hU : ∀ row ∈ env.data, U G h (rowTime row)) (uS : U G h S) (uE : U G h E) (hR : h ≤ R)
    (kl : ExprKept rd env.data env.params l) (kr : ExprKept rd env.data env.params r) :
    ∃ T' v, computeRob rd env (.atom s k l r) = .ok (T', v) ∧
      FpOutcome rd G env S E h (.atom s k l r) T' v := by
  obtain ⟨l', v1, a1, a2⟩ := expr_prev hL hc hE hSE l hF.1 hf.2.1 (hk.imp (·.1) id)
  obtain ⟨r', v2, b1, b2⟩ := expr_prev hL hc hE hSE r hF.2 hf.2.2 (hk.imp (·.2) id)
  obtain ⟨q, q1, q2⟩ := term_rows (P := env.params) (S := S) (E := E) hL.shape hL.ip
  have key := term_sim (n := n) hcalc hL.ip hR hU (Q := Fresh env.params S E) q1 (fun _ _ a => a.2) (fun _ _ _ a => a.2)
    (fun _ _ _ a => a.2) (fun _ _ _ a => a.2) fun T T' x a b c => ⟨(q2 a b c).2.1, (q2 a b c).2.2.2.2⟩
  have sl := key l hF.1 hf.2.1 kl (eg_fresh hcalc uS uE hF.1 hf.2.1)
  have sr := key r hF.2 hf.2.2 kr (eg_fresh hcalc uS uE hF.2 hf.2.2)
  have gl := (sl.2 _ a1).1.st.2.2
  obtain ⟨f1, f2, f3, f4, f5⟩ := hf.1
  have ht := a2.times.trans b2.times.symm
  have hP : Steps (fun t => rd (margin k (expr .PREVIOUS env.data env.params l t)
      (expr .PREVIOUS env.data env.params r t))) E (comb (atomR rd k) l'.st.z.samples r'.st.z.samples) := by
    refine comb_steps (g := atomR rd k) (fun _ _ => rfl) (fun _ _ _ _ => rfl) ?_ ht a2.steps b2.steps
    intro p q x e1 e2
    rw [e1, e2]
    rfl
  have hT0 : times (comb (atomR rd k) l'.st.z.samples r'.st.z.samples) = times l'.st.z.samples :=
    comb_times (g := atomR rd k) (fun _ _ => rfl) ht
  have hT := hT0.trans a2.times
  obtain ⟨hne, hhd⟩ := times_head hT
  obtain ⟨hN, hI⟩ := snode_of_steps hne hP hhd (fun t a b => hn.within (hB t a b).1 (hB t a b).2)
  have hG : LG rd G h (comb (atomR rd k) l'.st.z.samples r'.st.z.samples) := by
    intro p hp
    refine ⟨?_, hP.flat p hp, ?_⟩
    · obtain ⟨x, y, e⟩ : ∃ x y, p = atomR rd k x y := mem_comb _ _ hp
      rw [e]
      exact hn.idem _
    · have : p.time ∈ times l'.st.z.samples := by rw [← hT0]; exact List.mem_map.2 ⟨p, hp, rfl⟩
      obtain ⟨p', hp', e⟩ := List.mem_map.1 this
      rw [← e]
      exact (gl.1 p' hp').2.2
  set L := comb (atomR rd k) l'.st.z.samples r'.st.z.samples with hLdef
  obtain ⟨p, m, hpm⟩ := List.exists_cons_of_ne_nil hne
  obtain ⟨q', hq⟩ : ∃ q, (p :: m).getLast? = some q := ⟨_, List.getLast?_eq_some_getLast (by simp)⟩
  have hz : atomRob rd env k s.z l'.st.z r'.st.z = .ok ⟨L, S, E⟩ := by
    unfold atomRob
    rw [hL.ip, atomLoop_round, f3, appendSamples_prev hP.sinc hP.flat, hsem]
    show Except.ok _ = _
    rw [hpm, sigOf_eq hq, ← hpm, a2.e, hhd p (by rw [hpm]; rfl)]
  obtain ⟨p', hp', hpv⟩ := hN.front
  refine ⟨.atom { s with z := ⟨L, S, E⟩ } k l' r', p'.value, ?_,
    ⟨hN, ⟨hG, uS, uE⟩, fun t a b => ⟨_, rfl, ?_⟩, hpv⟩⟩
  · simp only [computeRob, sl.1, sr.1, a1, b1, bind, Except.bind, hz, hp']
  · exact (er_inj (hI t a b)).symm

theorem rob_prev_fp (hcalc : Calc rd env.B R G) (hn : Nice rd env.B) (hL : Prev env n) (hsem : env.sem = .SPACE)
    (T : Tr) : ∀ {S E h : ℚ}, 0 ≤ S → S ≤ E →
    Covers env.data S (E + reach env.params T) → IsFormula n env.params T →
    Fresh env.params S E T → StepOk env.data env.params S E T →
    AtomsWithin .PREVIOUS env.B env.data env.params S E T →
    (∀ row ∈ env.data, U G h (rowTime row)) → U G h S → U G h E → 2 * (h + allReach env.params T) ≤ R →
    OperandsKept rd env.data env.params T → BoundsIn G env.params T →
    ∃ T' v, computeRob rd env T = .ok (T', v) ∧ FpOutcome rd G env S E (h + allReach env.params T) T T' v := by
  have hnn := allReach_nonneg env.params
  induction T with
  | atom s k l r =>
    intro S E h h0 hSE hc hF hf hk hB hU uS uE hR ho hb
    have := u_pos uS
    simp only [allReach, add_zero] at hR ⊢
    exact atom_prev_fp hcalc hn hL hsem (covers_mono hc le_rfl (by simp [reach])) (h0.trans hSE) hSE hF hf hk hB
      hU uS uE (by linarith) ho.1 ho.2
  | not s c ih =>
    intro S E h h0 hSE hc hF hf hk hB hU uS uE hR ho hb
    obtain ⟨c', v, a1, a2⟩ := ih h0 hSE hc hF hf.2 hk hB hU uS uE hR ho hb
    obtain ⟨p, hp, hpv⟩ := a2.node.not.front
    refine ⟨.not { s with z := computeNot c'.st.z } c', p.value, ?_,
      ⟨a2.node.not, sg_not hcalc a2.sg, a2.is.neg hn, hpv⟩⟩
    simp only [computeRob, a1, bind, Except.bind, hp]
  | and s l r ih1 ih2 =>
    intro S E h h0 hSE hc hF hf hk hB hU uS uE hR ho hb
    have m1 : h + allReach env.params l ≤ h + allReach env.params (.and s l r) := by simp [allReach]
    have m2 : h + allReach env.params r ≤ h + allReach env.params (.and s l r) := by simp [allReach]
    obtain ⟨l', v, a1, a2⟩ := ih1 h0 hSE (covers_mono hc le_rfl (by simp [reach])) hF.1 hf.2.1 hk.1 hB.1 hU uS uE
      (by linarith) ho.1 hb.1
    obtain ⟨r', w, b1, b2⟩ := ih2 h0 hSE (covers_mono hc le_rfl (by simp [reach])) hF.2 hf.2.2 hk.2.1 hB.2 hU uS uE
      (by linarith) ho.2 hb.2
    obtain ⟨z, c1, c2, c3⟩ := a2.node.and b2.node (a2.is.settled a2.node hk.2.2.1)
      (b2.is.settled b2.node hk.2.2.2)
    obtain ⟨p, hp, hpv⟩ := c2.front
    have sm := computeAndM_sim hcalc (a2.sg.mono m1) (b2.sg.mono m2)
    have hz : andRob rd l'.st.z r'.st.z = .ok z := by
      unfold andRob
      have e1 : ({ l'.st.z with endTime := max l'.st.z.endTime r'.st.z.endTime } : Signal) = l'.st.z := by
        rw [a2.node.e, b2.node.e, max_self, ← a2.node.e]
      have e2 : ({ r'.st.z with endTime := max l'.st.z.endTime r'.st.z.endTime } : Signal) = r'.st.z := by
        rw [a2.node.e, b2.node.e, max_self, ← b2.node.e]
      simp only [e1, e2, sm.1, c1]
    refine ⟨.and { s with z := z } l' r', p.value, ?_, ⟨c2, sm.2 _ c1, a2.is.inf hn b2.is c3, hpv⟩⟩
    simp only [computeRob, a1, b1, bind, Except.bind, hp, hz]
  | or s l r ih1 ih2 =>
    intro S E h h0 hSE hc hF hf hk hB hU uS uE hR ho hb
    have m1 : h + allReach env.params l ≤ h + allReach env.params (.or s l r) := by simp [allReach]
    have m2 : h + allReach env.params r ≤ h + allReach env.params (.or s l r) := by simp [allReach]
    obtain ⟨l', v, a1, a2⟩ := ih1 h0 hSE (covers_mono hc le_rfl (by simp [reach])) hF.1 hf.2.1 hk.1 hB.1 hU uS uE
      (by linarith) ho.1 hb.1
    obtain ⟨r', w, b1, b2⟩ := ih2 h0 hSE (covers_mono hc le_rfl (by simp [reach])) hF.2 hf.2.2 hk.2.1 hB.2 hU uS uE
      (by linarith) ho.2 hb.2
    obtain ⟨z, c1, c2, c3⟩ := a2.node.or b2.node (a2.is.settled a2.node hk.2.2.1)
      (b2.is.settled b2.node hk.2.2.2)
    obtain ⟨p, hp, hpv⟩ := c2.front
    have sm := computeOrM_sim hcalc (a2.sg.mono m1) (b2.sg.mono m2)
    have hz : orRob rd l'.st.z r'.st.z = .ok z := by
      unfold orRob
      have e1 : ({ l'.st.z with endTime := max l'.st.z.endTime r'.st.z.endTime } : Signal) = l'.st.z := by
        rw [a2.node.e, b2.node.e, max_self, ← a2.node.e]
      have e2 : ({ r'.st.z with endTime := max l'.st.z.endTime r'.st.z.endTime } : Signal) = r'.st.z := by
        rw [a2.node.e, b2.node.e, max_self, ← b2.node.e]
      simp only [e1, e2, sm.1, c1]
    refine ⟨.or { s with z := z } l' r', p.value, ?_, ⟨c2, sm.2 _ c1, a2.is.sup hn b2.is c3, hpv⟩⟩
    simp only [computeRob, a1, b1, bind, Except.bind, hp, hz]
  | implies s l r ih1 ih2 =>
    intro S E h h0 hSE hc hF hf hk hB hU uS uE hR ho hb
    have m1 : h + allReach env.params l ≤ h + allReach env.params (.implies s l r) := by simp [allReach]
    have m2 : h + allReach env.params r ≤ h + allReach env.params (.implies s l r) := by simp [allReach]
    obtain ⟨l', v, a1, a2⟩ := ih1 h0 hSE (covers_mono hc le_rfl (by simp [reach])) hF.1 hf.2.1 hk.1 hB.1 hU uS uE
      (by linarith) ho.1 hb.1
    obtain ⟨r', w, b1, b2⟩ := ih2 h0 hSE (covers_mono hc le_rfl (by simp [reach])) hF.2 hf.2.2 hk.2.1 hB.2 hU uS uE
      (by linarith) ho.2 hb.2
    obtain ⟨z, c1, c2, c3⟩ := a2.node.not.or b2.node
      (fun h => by rw [v_not, v_not, a2.is.settled a2.node hk.2.2.1 h])
      (b2.is.settled b2.node hk.2.2.2)
    obtain ⟨p, hp, hpv⟩ := c2.front
    have sm := implies_sim hcalc (a2.sg.mono m1) (b2.sg.mono m2)
    have hz : computeImpliesM rd l'.st.z r'.st.z = .ok z := by rw [sm.1]; exact c1
    refine ⟨.implies { s with z := z } l' r', p.value, ?_, ⟨c2, sm.2 _ c1, (a2.is.neg hn).sup hn b2.is c3, hpv⟩⟩
    simp only [computeRob, a1, b1, bind, Except.bind, hp, hz]
  | ev s I c ih =>
    intro S E h h0 hSE hc hF hf hk hB hU uS uE hR ho hb
    obtain ⟨ha, hab, hFc⟩ := hF
    obtain ⟨ua, ub, uba⟩ := ig_bounds hcalc hb.1 hb.2.1
    rw [ivA_eq] at ua uba
    rw [ivB_eq] at ub uba
    have hq := u_pos ua
    have hh := u_pos uS
    have hc0 := hnn c
    simp only [allReach] at hR ⊢
    set q := |bound env.params I.beginStr I.begin| + |bound env.params I.stopStr I.stop| with hqd
    set a := bound env.params I.beginStr I.begin with hadef
    set b := bound env.params I.stopStr I.stop with hbdef
    set w' := allReach env.params c with hw'
    have hcov : Covers env.data (S + a) (E + b + reach env.params c) :=
      covers_mono hc (by linarith) (by simp [reach, ← hbdef]; linarith)
    obtain ⟨_, _, _, x2⟩ := rob_prev hL hsem c (S := S + a) (E := E + b) (by linarith) (by linarith) hcov hFc hf.2 hk hB
    obtain ⟨c', v, a1, a2⟩ := ih (S := S + a) (E := E + b) (h := h + q) (by linarith) (by linarith)
      hcov hFc hf.2 hk hB (fun r hr => (hU r hr).mono (by linarith)) (uS.add hcalc ua) (uE.add hcalc ub)
      (by linarith) ho hb.2.2
    obtain ⟨z, b1, b0, b2, z', b3, b4, b5⟩ := a2.node.ev (old := s.z) hSE
      (f := fun t => er (c'.st.z.v (pl t))) (fun t _ _ => rfl) ha hab
    obtain ⟨p, hp, hpv⟩ := b4.front
    obtain ⟨zc, hzc⟩ : ∃ zc, Signal.resize c'.st.z (E - b) (E + b) 0 = .ok zc :=
      resize_total _ _ _ a2.node.wf.ne
    have het : min z.endTime s.stop = E := by rw [hf.1.2.1]; exact min_eq_right b2
    have s1 := timedEv_sim (o := h + q + w' + 3 * q) (old := s.z) hcalc (by linarith) hq ua uba (by linarith) a2.sg
      le_rfl fun h => absurd h a2.node.wf.ne
    have uEb := uE.sub hcalc ub
    have s2 := resize_sim (r := h + q + (w' + 4 * q)) hcalc (by linarith) (by linarith) (a2.sg.mono (by linarith))
      (uEb.mono (by linarith)) ((uE.add hcalc ub).mono (by linarith)) hcalc.zero
    have s3 := resize_sim (r := h + q + w' + 3 * q) hcalc (by linarith) (by linarith) (s1.2 _ b1) (uS.mono (by linarith))
      (uE.mono (by linarith)) hcalc.zero
    have hz : evRob rd env.B s a b c'.st.z = .ok (z', zc) := by
      unfold evRob
      simp only [s1.1, b1, bind, Except.bind, het]
      rw [uEb.fix hcalc (by linarith), a2.node.e, s2.1, hzc]
      simp only [hf.1.1, max_eq_right hSE, s3.1, b3]
    refine ⟨.ev { s with z := z' } I (Tr.setZ zc c'), p.value, ?_,
      ⟨b4, (s3.2 _ b3).mono (by linarith), Rounds.ev hn hab x2.node x2.is a2.is b5, hpv⟩⟩
    simp only [computeRob, a1, bind, Except.bind, ivA_eq, ivB_eq, ← hadef, ← hbdef, hz, hp]
  | alw s I c ih =>
    intro S E h h0 hSE hc hF hf hk hB hU uS uE hR ho hb
    obtain ⟨ha, hab, hFc⟩ := hF
    obtain ⟨ua, ub, uba⟩ := ig_bounds hcalc hb.1 hb.2.1
    rw [ivA_eq] at ua uba
    rw [ivB_eq] at ub uba
    have hq := u_pos ua
    have hh := u_pos uS
    have hc0 := hnn c
    simp only [allReach] at hR ⊢
    set q := |bound env.params I.beginStr I.begin| + |bound env.params I.stopStr I.stop| with hqd
    set a := bound env.params I.beginStr I.begin with hadef
    set b := bound env.params I.stopStr I.stop with hbdef
    set w' := allReach env.params c with hw'
    have hcov : Covers env.data (S + a) (E + b + reach env.params c) :=
      covers_mono hc (by linarith) (by simp [reach, ← hbdef]; linarith)
    obtain ⟨_, _, _, x2⟩ := rob_prev hL hsem c (S := S + a) (E := E + b) (by linarith) (by linarith) hcov hFc hf.2 hk hB
    obtain ⟨c', v, a1, a2⟩ := ih (S := S + a) (E := E + b) (h := h + q) (by linarith) (by linarith)
      hcov hFc hf.2 hk hB (fun r hr => (hU r hr).mono (by linarith)) (uS.add hcalc ua) (uE.add hcalc ub)
      (by linarith) ho hb.2.2
    obtain ⟨z, b1, b0, b2, z', b3, b4, b5⟩ := a2.node.alw (old := s.z) hSE
      (f := fun t => er (c'.st.z.v (pl t))) (fun t _ _ => rfl) ha hab
    obtain ⟨p, hp, hpv⟩ := b4.front
    have het : min z.endTime s.stop = E := by rw [hf.1.2.1]; exact min_eq_right b2
    have s1 := timedGlob_sim (o := h + q + w' + 3 * q) (old := s.z) hcalc (by linarith) hq ua uba (by linarith) a2.sg
      le_rfl fun h => absurd h a2.node.wf.ne
    have s3 := resize_sim (r := h + q + w' + 3 * q) hcalc (by linarith) (by linarith) (s1.2 _ b1) (uS.mono (by linarith))
      (uE.mono (by linarith)) hcalc.zero
    have hz : alwRob rd env.B s a b c'.st.z = .ok z' := by
      unfold alwRob
      simp only [s1.1, b1, bind, Except.bind, het]
      simp only [hf.1.1, max_eq_right hSE, s3.1, b3]
    refine ⟨.alw { s with z := z' } I c', p.value, ?_,
      ⟨b4, (s3.2 _ b3).mono (by linarith), Rounds.alw hn hab x2.node x2.is a2.is b5, hpv⟩⟩
    simp only [computeRob, a1, bind, Except.bind, ivA_eq, ivB_eq, ← hadef, ← hbdef, hz, hp]
  | _ => intro S E h h0 hSE hc hF; exact hF.elim

end

theorem exprKept_forgetB {rd : ℚ → ℚ} {D : List (List ℚ)} {P : Assoc ℚ} : ∀ T : Tr,
    ExprKept rd D P (T.forgetB false) ↔ ExprKept rd D P T := by
  have hn : ∀ (p : String) (v : ℚ), number P p (if p = "" then v else 0) = number P p v := by
    intro p v
    unfold number
    split_ifs <;> rfl
  have hr : ∀ (row : List ℚ) (T : Tr), rowExpr P row (T.forgetB false) = rowExpr P row T := by
    intro row T
    induction T <;> simp_all [Tr.forgetB, rowExpr]
  intro T
  induction T with
  | sig s v m td => simp [Tr.forgetB, ExprKept, rowExpr]
  | const => simp [Tr.forgetB, ExprKept, hn]
  | abs _ c ih => simpa [Tr.forgetB, ExprKept] using ih
  | plus s l r i j | minus s l r i j | mult s l r i j => simp [Tr.forgetB, ExprKept, rowExpr, hr, i, j]
  | _ => simp [Tr.forgetB, ExprKept]

theorem operandsKept_forgetB {rd : ℚ → ℚ} {D : List (List ℚ)} {P : Assoc ℚ} : ∀ T : Tr,
    OperandsKept rd D P (T.forgetB false) ↔ OperandsKept rd D P T := by
  intro T
  induction T <;> simp_all [Tr.forgetB, OperandsKept, exprKept_forgetB]

theorem boundsIn_forgetB {G : ℚ → Prop} {P : Assoc ℚ} : ∀ T : Tr, BoundsIn G P (T.forgetB false) ↔ BoundsIn G P T := by
  intro T
  induction T <;> simp_all [Tr.forgetB, BoundsIn]

theorem allReach_forgetB {P : Assoc ℚ} : ∀ T : Tr, allReach P (T.forgetB false) = allReach P T := by
  intro T
  induction T <;> simp_all [Tr.forgetB, allReach]

theorem exprKept_rows {rd : ℚ → ℚ} {D D' : List (List ℚ)} {P : Assoc ℚ} (hD : ∀ row ∈ D', row ∈ D) :
    ∀ T : Tr, ExprKept rd D P T → ExprKept rd D' P T := by
  intro T
  induction T with
  | sig => exact fun h row hr => h row (hD row hr)
  | const => exact id
  | abs _ c ih => exact ih
  | plus s l r i j | minus s l r i j | mult s l r i j =>
    exact fun h => ⟨fun row hr => h.1 row (hD row hr), i h.2.1, j h.2.2⟩
  | _ => exact fun _ => trivial

theorem operandsKept_none {rd : ℚ → ℚ} {D : List (List ℚ)} {P : Assoc ℚ} :
    ∀ T : Tr, OperandsKept rd D P T → MarginsKept rd [] P T := by
  intro T
  induction T with
  | atom s k l r =>
    exact fun h => ⟨by simp, exprKept_rows (by simp) l h.1, exprKept_rows (by simp) r h.2⟩
  | not _ c ih | ev _ _ c ih | alw _ _ c ih => exact ih
  | and _ l r i j | or _ l r i j | implies _ l r i j | untl _ l _ r i j => exact fun h => ⟨i h.1, j h.2⟩
  | _ => exact fun _ => trivial

theorem declared_of_formula {n : ℕ} {P : Assoc ℚ} : ∀ T : Tr, IsFormula n P T → Declared n T := by
  intro T
  induction T with
  | atom => exact id
  | not _ c ih => exact ih
  | and _ l r i j | or _ l r i j | implies _ l r i j => exact fun h => ⟨i h.1, j h.2⟩
  | ev _ _ c ih | alw _ _ c ih => exact fun h => ih h.2.2
  | _ => exact fun h => h.elim

/-- The result of an evaluation in doubles. -/
theorem evalRob_step_fp {rd : ℚ → ℚ} {g g' : Globals} {m m' : Monitor} {n : ℕ} {T : Tr} {s e v h R : ℚ} {G : ℚ → Prop}
    (hcalc : Calc rd g.B R G) (hn : Nice rd g.B)
    (hr : Ready .PREVIOUS n g.B m T s e) (hk : StepOk m.data m.params s e T)
    (ho : OperandsKept rd m.data m.params T) (hb : BoundsIn G m.params T)
    (hU : ∀ row ∈ m.data, U G h (rowTime row)) (us : U G h s) (ue : U G h e)
    (hR : 2 * (h + allReach m.params T) ≤ R)
    (hv : evalRob rd g m s e = (g', m', .ok v)) :
    ∃ x, rob .PREVIOUS m.data m.params T s = er x ∧ v = rd x := by
  have hL : Prev (m.envOf g) n := ⟨hr.interpol, hr.rows⟩
  have hp : (Monitor.prepare m.params s e T).forgetB false = T.forgetB false :=
    Tr.forgetB_prepare (by simp [hr.names]) s e T
  have h1 := u_pos us
  have h2 := allReach_nonneg m.params T
  have hprep := (prepare_sim (D := []) (rd := rd) (n := n) hcalc hr.names T h s e (by linarith) us ue
    (declared_of_formula T hr.shape) (operandsKept_none T ho) hb).1
  set T0 := Monitor.prepare m.params s e T with hT0
  obtain ⟨T1, w, a1, a2⟩ := rob_prev_fp (env := m.envOf g) hcalc hn hL hr.sem T0 (S := s) (E := e) (h := h) hr.start hr.stop
    (by rw [← reach_forget, hp, reach_forget]; exact hr.covers)
    (by rw [← isFormula_forget, hp, isFormula_forget]; exact hr.shape)
    (fresh_prepare _ T s e)
    (by rw [← stepOk_forget, hp, stepOk_forget]; exact hk)
    (by rw [← atomsWithin_forget, hp, atomsWithin_forget]; exact hr.within) hU us ue
    (by rw [← allReach_forgetB, hp, allReach_forgetB]; exact hR)
    (by rw [← operandsKept_forgetB, hp, operandsKept_forgetB]; exact ho)
    (by rw [← boundsIn_forgetB, hp, boundsIn_forgetB]; exact hb)
  obtain ⟨x, x1, x2⟩ := a2.is s le_rfl hr.stop
  refine ⟨x, ?_, ?_⟩
  · rw [← x1, ← rob_forget, ← hp, rob_forget]
    rfl
  unfold evalRob at hv
  rw [hr.formula] at hv
  simp only [hprep] at hv
  split at hv
  · rename_i T' r lo up hrun
    simp only [run3, bind_eq_ok, Prod.exists] at hrun
    obtain ⟨T1', w', k1, T2, lo', k2, T3, up', k3, k4⟩ := hrun
    rw [show computeRob rd ⟨g.B, m.sem, m.ip, m.data, m.params⟩ T0 = _ from a1] at k1
    simp only [Except.ok.injEq, Prod.mk.injEq] at k1 k4 hv
    rw [← hv.2.2, ← k4.2.1, ← k1.2, a2.val, x2]
  · simp at hv

/-! ## The rounding of doubles -/

theorem dbl_mono : Monotone dbl := by
  intro x y hxy
  by_contra hlt
  push Not at hlt
  have hx := rep_dbl x
  have hy := rep_dbl y
  have h1 : y < dbl x := by
    by_contra hc
    push Not at hc
    exact absurd ((dbl_rep hx).2 hc) (not_le.2 hlt)
  have h2 : dbl y < x := by
    by_contra hc
    push Not at hc
    exact absurd ((dbl_rep hy).1 hc) (not_le.2 hlt)
  have h3 := dbl_closest x hy
  have h4 := dbl_closest y hx
  rw [abs_of_pos (by linarith), abs_of_neg (by linarith)] at h3
  rw [abs_of_neg (by linarith), abs_of_pos (by linarith)] at h4
  have : x = y := by linarith
  subst this
  exact lt_irrefl _ hlt

theorem nearest_neg (m : ℚ) : nearest (-m) = -nearest m := by
  by_cases hi : m = ⌊m⌋
  · have e := nearest_int ⌊m⌋
    have e' := nearest_int (-⌊m⌋)
    push_cast at e'
    rw [← hi] at e e'
    rw [e, e']
  · have hl : (⌊m⌋ : ℚ) < m := lt_of_le_of_ne (Int.floor_le m) (Ne.symm hi)
    have hu := Int.lt_floor_add_one m
    have hf : ⌊-m⌋ = -⌊m⌋ - 1 := by
      rw [Int.floor_eq_iff]
      push_cast
      constructor <;> linarith
    unfold nearest
    simp only [hf]
    push_cast
    split_ifs <;> first | omega | (exfalso; linarith)

theorem dbl_odd (x : ℚ) : dbl (-x) = -dbl x := by
  have he : expo (-x) = expo x := by
    unfold expo
    rw [Rat.num_neg_eq_neg_num, Rat.den_neg_eq_den, Int.natAbs_neg, abs_neg]
  unfold dbl
  by_cases h0 : x = 0
  · simp [h0]
  · rw [if_neg h0, if_neg (by simpa using h0), he]
    simp only
    rw [neg_div, nearest_neg]
    push_cast
    rw [neg_mul]

theorem dbl_nice {B : ℚ} (hB : dbl B = B) : Nice dbl B := ⟨dbl_mono, dbl_odd, dbl_dbl, hB⟩

end Fp
end STLRom
