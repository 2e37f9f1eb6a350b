import Verif.Proofs.LeftAgain
import Verif.Proofs.Formula
import Verif.Proofs.TopSup
import Verif.Proofs.Step
import Verif.Spec.LeftTime

/-!
# Temporal operators over comparisons in the LEFT_TIME semantics
-/

namespace STLRom
open Signal Spec

/-- A left time robustness signal has no sample at its end. -/
theorem leftTimeRob_lt {y z : Signal} {p : Sample} (hs : SInc y.samples)
    (hh : y.samples.head? = some p) (hp : p.time = y.beginTime)
    (hle : ∀ q ∈ y.samples, q.time ≤ y.endTime) (h : computeLeftTimeRob y = .ok z)
    (hz : z.samples ≠ []) : ∀ q ∈ z.samples, q.time < y.endTime := by
  obtain ⟨g1, -, g3, g4, -⟩ := leftTimeRob_again hs hh hp h hz
  obtain ⟨p', l, hy⟩ : ∃ p' l, y.samples = p' :: l := by
    cases hy : y.samples with
    | nil => simp [hy] at hh
    | cons a l => exact ⟨a, l, rfl⟩
  have : p' = p := by simpa [hy] using hh
  subst this
  obtain ⟨r, hr⟩ := boolList_cons y.endTime p' l
  rw [← hy] at hr
  obtain ⟨b1, b2⟩ := boolList_steps y.endTime hs
  rw [hr] at b1
  obtain ⟨c, d, h1, h2⟩ := computeBoolean_steps b1 hr hp
  have hst := List.Pairwise.sublist ((dedupFrom_sub r (⟨p'.time, bit p', 0⟩ : Sample)).cons_cons _) b1
  rw [h1] at hst
  have hdc : ∀ q ∈ d, q.time < c.time := fun q hq =>
    (List.pairwise_append.1 hst).2.2 q hq c (by simp)
  rw [computeLeftTimeRob, h2] at h
  simp only [bind, Except.bind, Except.ok.injEq] at h
  have hz4 := g4 hle
  by_cases he : c.time = y.endTime
  · rw [if_pos he] at h
    intro q hq
    rw [← h] at hq
    obtain ⟨q', hq', rfl⟩ := List.mem_map.1 hq
    have := hdc q' hq'
    rw [he] at this
    split_ifs <;> exact this
  · rw [if_neg he, h1] at h
    have hc : c.time ≤ y.endTime := by
      rw [← g3]
      have : leftOf c ∈ z.samples := by
        rw [← h]
        exact List.mem_map.2 ⟨c, by simp, rfl⟩
      have := hz4 _ this
      rwa [leftOf_time] at this
    have hc' := lt_of_le_of_ne hc he
    intro q hq
    rw [← h] at hq
    obtain ⟨q', hq', rfl⟩ := List.mem_map.1 hq
    have h5 : q'.time < y.endTime := by
      rcases List.mem_append.1 hq' with h6 | h6
      · exact (hdc q' h6).trans hc'
      · rw [List.mem_singleton.1 h6]; exact hc'
    split_ifs <;> exact h5

section
variable {env : Env} {n : ℕ}

/-- A comparison in the LEFT_TIME semantics: the left time robustness of its margin. -/
theorem atom_left (hL : Lin env n) (hsem : env.sem = .LEFT_TIME) {S E : ℚ} (hc : Covers env.data S E)
    (hE : 0 ≤ E) (hSE : S < E) {s : St} {k : Cmp} {l r : Tr}
    (hF : IsFormula n env.params (.atom s k l r)) (hf : Fresh env.params S E (.atom s k l r))
    (hk : AtomsOk env.data env.params S E (.atom s k l r)) :
    ∃ L, L ≠ [] ∧ Pieces (fun t => margin k (expr .LINEAR env.data env.params l t)
        (expr .LINEAR env.data env.params r t)) E L ∧ times L = grid env.data S E ∧
      ∀ T' v, Tr.computeRob env (.atom s k l r) = .ok (T', v) →
        computeLeftTimeRob ⟨L, S, E⟩ = .ok T'.st.z := by
  have hkl : EOk env.data S E l := hk.imp (·.1) (fun h => ⟨h.1, h.2.2⟩)
  have hkr : EOk env.data S E r := hk.imp (·.2) (fun h => ⟨h.2.1, h.2.2⟩)
  obtain ⟨l', v1, a1, a2, a3⟩ := expr_first hL hc hE hSE.le l hF.1 hf.2.1 hkl
  obtain ⟨r', v2, b1, b2, b3⟩ := expr_first hL hc hE hSE.le r hF.2 hf.2.2 hkr
  obtain ⟨f1, f2, f3, f4, f5⟩ := hf.1
  have htl := a2.st.2.2.2.2
  have htr := b2.st.2.2.2.2
  have ht : times l'.st.z.samples = times r'.st.z.samples := htl.trans htr.symm
  have hP : Pieces (fun t => margin k (expr .LINEAR env.data env.params l t)
      (expr .LINEAR env.data env.params r t)) E (comb (atomS k) l'.st.z.samples r'.st.z.samples) := by
    refine comb_pieces (atomS_time k) ?_ ht a3 b3
    intro p q x e1 _ _ e2 e3 _ _
    rw [e2, e3]
    cases k <;> simp only [margin, atomS, Sample.valueAt, e1] <;> ring
  have hT : times (comb (atomS k) l'.st.z.samples r'.st.z.samples) = grid env.data S E := by
    rw [comb_times (atomS_time k) ht, htl]
  obtain ⟨hne, hhd⟩ := times_head hT
  set L := comb (atomS k) l'.st.z.samples r'.st.z.samples with hLdef
  obtain ⟨p, m, hpm⟩ := List.exists_cons_of_ne_nil hne
  obtain ⟨q, hq⟩ : ∃ q, (p :: m).getLast? = some q := ⟨_, List.getLast?_eq_some_getLast (by simp)⟩
  have hz : Tr.atomRob env k s.z l'.st.z r'.st.z = computeLeftTimeRob ⟨L, S, E⟩ := by
    unfold Tr.atomRob
    rw [atomLoop_eq, hL.ip, f3, appendSamples_empty hP.sinc, hsem]
    show computeLeftTimeRob _ = _
    rw [hpm, relinkSig_eq hq, ← hpm, hP.relink_eq, a2.st.2.2.2.1,
      hhd p (by rw [hpm]; rfl)]
  refine ⟨L, hne, hP, hT, fun T' v h => ?_⟩
  simp only [Tr.computeRob, a1, b1, bind, Except.bind, hz] at h
  cases hw : computeLeftTimeRob ⟨L, S, E⟩ with
  | error f => simp [hw] at h
  | ok w =>
    simp only [hw] at h
    cases hfr : w.front with
    | error f => simp [hfr] at h
    | ok u =>
      simp only [hfr, Except.ok.injEq, Prod.mk.injEq] at h
      rw [← h.1]
      rfl

end

/-- The value of `ev` at the single time `t`. -/
theorem evRob_once {B a b t : ℚ} {s : St} {x z x' : Signal} {p : Sample} (hs1 : s.start = t) (hs2 : s.stop = t)
    (hx : WF0 x) (hg : SInc x.samples) (hb : x.beginTime = t + a) (he : x.endTime = t + b) (ha : 0 ≤ a)
    (hab : a ≤ b) (hB : ∀ σ, pl x.beginTime ≤ σ → σ ≤ pl x.endTime → -B ≤ x.v σ)
    (h : Tr.evRob B s a b x = .ok (z, x')) (hp : z.front = .ok p) :
    Top x.v (pl (t + a)) (pl (t + b)) p.value := by
  obtain ⟨w, h1, h2, h3, h4, h5, -⟩ := computeTimedEventually_spec (B := B) (old := s.z) hx (Or.inl hg) ha hab
    (fun h => absurd h (by rw [hb, he]; linarith)) hB
  have hT := h5 (pl t) (by rw [h2, hb]; simp) (by rw [h3, he]; simp; linarith)
    (fun h => absurd h (by rw [hb, he]; linarith))
  rw [he, pl_shift, pl_shift, min_self] at hT
  unfold Tr.evRob at h
  simp only [h1, bind_eq_ok, Except.ok.injEq, Prod.mk.injEq, exists_eq_left'] at h
  obtain ⟨xc, -, z', h6, rfl, -⟩ := h
  rw [hs1, hs2, h3, he, min_eq_right (by linarith), max_self] at h6
  obtain ⟨z'', r1, r2, r3, r4, r5, -, r6, -⟩ := resize_inside (s := t) (t := t) 0 h4.1.wfb (by rw [h2, hb]; linarith) le_rfl
    (by rw [h3, he]; linarith) (Or.inl (by rw [h2, hb]; ring))
  rw [h6] at r1
  cases r1
  have hv : val z'.samples (pl t) = some p.value := by
    obtain ⟨q, l, hq⟩ := List.exists_cons_of_ne_nil r4.ne
    have hqt := r4.head q (by rw [hq]; rfl)
    rw [r2] at hqt
    have hwf : WF x := ⟨hx, fun q hq => by
      obtain ⟨p0, l0, e1, e2⟩ := hx.wfb.exists_cons
      rw [e1] at hq hg
      rw [← e2]
      exact (List.pairwise_cons.1 hg).1 q hq⟩
    have hl : l = [] := by
      obtain ⟨suf, hsuf⟩ := r6 (by rw [h2, hb]; ring)
      cases l with
      | nil => rfl
      | cons c l =>
        have c1 := (h4.2 hwf).strict c (by rw [← hsuf, hq]; simp)
        have c2 := r4.le_end c (by rw [hq]; simp)
        rw [r3] at c2
        rw [h2, hb] at c1
        linarith
    subst hl
    rw [Signal.front, hq] at hp
    simp only [Except.ok.injEq] at hp
    subst hp
    rw [hq]
    simp [val, cur, hqt, Sample.valueAt]
  rw [r5 _ le_rfl le_rfl] at hv
  rwa [Signal.v_of_val hv] at hT

/-- The value of `alw` at the single time `t`. -/
theorem alwRob_once {B a b t : ℚ} {s : St} {x z : Signal} {p : Sample} (hs1 : s.start = t) (hs2 : s.stop = t)
    (hx : WF0 x) (hg : SInc x.samples) (hb : x.beginTime = t + a) (he : x.endTime = t + b) (ha : 0 ≤ a)
    (hab : a ≤ b) (hB : ∀ σ, pl x.beginTime ≤ σ → σ ≤ pl x.endTime → x.v σ ≤ B)
    (h : Tr.alwRob B s a b x = .ok z) (hp : z.front = .ok p) :
    Bot x.v (pl (t + a)) (pl (t + b)) p.value := by
  obtain ⟨w, h1, h2, h3, h4, h5, -⟩ := computeTimedGlobally_spec (B := B) (old := s.z) hx (Or.inl hg) ha hab
    (fun h => absurd h (by rw [hb, he]; linarith)) hB
  have hT := h5 (pl t) (by rw [h2, hb]; simp) (by rw [h3, he]; simp; linarith)
    (fun h => absurd h (by rw [hb, he]; linarith))
  rw [he, pl_shift, pl_shift, min_self] at hT
  unfold Tr.alwRob at h
  simp only [h1, bind_eq_ok, Except.ok.injEq, exists_eq_left'] at h
  rw [hs1, hs2, h3, he, min_eq_right (by linarith), max_self] at h
  obtain ⟨z'', r1, r2, r3, r4, r5, -, r6, -⟩ := resize_inside (s := t) (t := t) 0 h4.1.wfb (by rw [h2, hb]; linarith)
    le_rfl (by rw [h3, he]; linarith) (Or.inl (by rw [h2, hb]; ring))
  rw [h] at r1
  cases r1
  have hv : val z.samples (pl t) = some p.value := by
    obtain ⟨q, l, hq⟩ := List.exists_cons_of_ne_nil r4.ne
    have hqt := r4.head q (by rw [hq]; rfl)
    rw [r2] at hqt
    have hwf : WF x := ⟨hx, fun q hq => by
      obtain ⟨p0, l0, e1, e2⟩ := hx.wfb.exists_cons
      rw [e1] at hq hg
      rw [← e2]
      exact (List.pairwise_cons.1 hg).1 q hq⟩
    have hl : l = [] := by
      obtain ⟨suf, hsuf⟩ := r6 (by rw [h2, hb]; ring)
      cases l with
      | nil => rfl
      | cons c l =>
        have c1 := (h4.2 hwf).strict c (by rw [← hsuf, hq]; simp)
        have c2 := r4.le_end c (by rw [hq]; simp)
        rw [r3] at c2
        rw [h2, hb] at c1
        linarith
    subst hl
    rw [Signal.front, hq] at hp
    simp only [Except.ok.injEq] at hp
    subst hp
    rw [hq]
    simp [val, cur, hqt, Sample.valueAt]
  rw [r5 _ le_rfl le_rfl] at hv
  rwa [Signal.v_of_val hv] at hT

theorem LeftTime.unique {f : ℚ → ℚ} {b t v w : ℚ} (h : LeftTime f b t v) (h' : LeftTime f b t w) : v = w := by
  have key : ∀ {c c' : ℚ}, b ≤ c → c ≤ t → (∀ s, c ≤ s → s ≤ t → (PosAfter f s ↔ PosAfter f t)) → c' ≤ t →
      (c' = b ∨ ∃ e, b ≤ e ∧ e < c' ∧ ∀ s, e ≤ s → s < c' → (PosAfter f s ↔ ¬ PosAfter f t)) → c' ≤ c := by
    intro c c' h1 h2 h3 h4 h5
    rcases h5 with rfl | ⟨e, h6, h7, h8⟩
    · exact h1
    · by_contra hlt
      push Not at hlt
      have k1 := h3 (max e c) (le_max_right _ _) ((max_lt h7 hlt).le.trans h4)
      have k2 := h8 (max e c) (le_max_left _ _) (max_lt h7 hlt)
      tauto
  obtain ⟨c, a1, a2, a3, a4, a5, a6⟩ := h
  obtain ⟨c', b1, b2, b3, b4, b5, b6⟩ := h'
  have e : c = c' := le_antisymm (key b1 b2 b3 a2 a4) (key a1 a2 a3 b2 b4)
  subst e
  by_cases hp : PosAfter f t
  · rw [a5 hp, b5 hp]
  · rw [a6 hp, b6 hp]

theorem LeftTime.bound {f : ℚ → ℚ} {b t v : ℚ} (h : LeftTime f b t v) : |v| ≤ tol + (t - b) := by
  obtain ⟨c, a1, a2, _, _, a5, a6⟩ := h
  have ht : (1 : ℚ) / 10 ^ 14 = tol := by decide +kernel
  rw [ht] at a5 a6
  have hp := tol_pos'
  by_cases hq : PosAfter f t
  · rw [a5 hq, abs_of_nonneg (by linarith)]
    linarith
  · rw [a6 hq, abs_neg, abs_of_nonneg (by linarith)]
    linarith

/-- A signal that agrees with `f` has the same truth. -/
theorem holds_iff_posAfter {y : Signal} {S E : ℚ} {f : ℚ → ℚ} (hy : WF0 y) (hb : y.beginTime = S)
    (hv : ∀ t, S ≤ t → t ≤ E → y.v (pl t) = f t) {t : ℚ} (h1 : S ≤ t) (h2 : t < E) :
    Holds y t ↔ PosAfter f t := by
  have hval : ∀ s, S ≤ s → s ≤ E → val y.samples (pl s) = some (f s) := fun s a b => by
    rw [← hv s a b]
    exact hy.val (by rw [hb]; simpa using a)
  rw [holds_iff hy.sorted]
  constructor
  · rintro ⟨_, ε, h3, h4⟩
    refine ⟨min ε (E - t), lt_min h3 (by linarith), fun s a b => ?_⟩
    have b1 := b.trans_le (add_le_add_right (min_le_left ε (E - t)) t)
    have b2 := b.trans_le (add_le_add_right (min_le_right ε (E - t)) t)
    obtain ⟨v, c1, c2⟩ := h4 s a b1
    rw [hval s (h1.trans a.le) (by linarith)] at c1
    rwa [Option.some.inj c1]
  · rintro ⟨ε, h3, h4⟩
    refine ⟨⟨_, hval t h1 h2.le⟩, min ε (E - t), lt_min h3 (by linarith), fun s a b => ?_⟩
    have b1 := b.trans_le (add_le_add_right (min_le_left ε (E - t)) t)
    have b2 := b.trans_le (add_le_add_right (min_le_right ε (E - t)) t)
    exact ⟨_, hval s (h1.trans a.le) (by linarith), h4 s a b1⟩

/-- The left time robustness signal of a margin. -/
theorem left_values {L : List Sample} {S E : ℚ} {f : ℚ → ℚ} {D : List (List ℚ)} {z : Signal} (hSE : S < E)
    (hne : L ≠ []) (hP : Pieces f E L) (hT : times L = grid D S E)
    (h0 : ∀ u, (u = S ∨ RowAt D u) → S ≤ u → u ≤ E → f u ≠ 0)
    (hr : ∀ row ∈ D, row ≠ []) (h : computeLeftTimeRob ⟨L, S, E⟩ = .ok z) :
    WF0 z ∧ SInc z.samples ∧ z.beginTime = S ∧ z.endTime = E ∧ z.v (mi E) = z.v (pl E) ∧
      (∀ u, S ≤ u → u < E → LeftTime f S u (z.v (pl u))) := by
  obtain ⟨-, hhd⟩ := times_head hT
  obtain ⟨p, l, hpl⟩ := List.exists_cons_of_ne_nil hne
  have hp : p.time = S := hhd p (by rw [hpl]; rfl)
  have hval : ∀ τ, pl S ≤ τ → τ ≤ pl E → val L τ = some (f τ.time) := by
    intro τ a b
    rw [hpl] at hP ⊢
    exact hP.val τ (by rw [hp]; exact a) b
  have hs := hP.sinc
  have hwf : WF ⟨L, S, E⟩ := by
    refine ⟨⟨hne, hhd, hs.imp le_of_lt, hP.le_end⟩, fun q hq => ?_⟩
    rw [hpl] at hq hs
    show S < q.time
    rw [← hp]
    exact (List.pairwise_cons.1 hs).1 q hq
  have hpv : ∀ q ∈ L, q.value = f q.time := by
    clear hwf hval h hT hhd hpl hne hs
    induction L with
    | nil => simp
    | cons a m ih =>
      intro q hq
      rcases List.mem_cons.1 hq with rfl | hq
      · exact hP.value.symm
      · exact ih hP.tail q hq
  have hnz : ∀ q ∈ L, ¬ (q.value = 0 ∧ 0 < q.derivative) := by
    rintro q hq ⟨h1, -⟩
    rw [hpv q hq] at h1
    have hm : q.time ∈ grid D S E := by rw [← hT]; exact List.mem_map.2 ⟨q, hq, rfl⟩
    simp only [STLRom.grid, List.mem_cons, List.mem_filter, List.mem_map, decide_eq_true_eq] at hm
    rcases hm with hm | ⟨⟨row, hrow, hm⟩, h2, h3⟩
    · exact h0 _ (Or.inl hm) hm.ge (hm.le.trans hSE.le) h1
    · refine h0 _ (Or.inr ⟨row, hrow, ?_⟩) h2.le h3 h1
      cases row with
      | nil => exact absurd rfl (hr _ hrow)
      | cons a m => rw [← hm]; rfl
  obtain ⟨w, w1, w2, w3, w4⟩ := leftTimeRob_spec hwf hs hnz
  rw [h] at w1
  cases w1
  have hzne : z.samples ≠ [] := by
    intro hz
    obtain ⟨c, -, -, c3, c4, -⟩ := w4 S le_rfl hSE
    by_cases hh : Holds ⟨L, S, E⟩ S
    · simpa [hz, val, cur] using c3 hh
    · simpa [hz, val, cur] using c4 hh
  obtain ⟨g1, ⟨q, g2, g2'⟩, g3, g4, -⟩ := leftTimeRob_again (p := p) hs (by rw [hpl]; rfl) hp h hzne
  have g5 := leftTimeRob_lt (p := p) hs (by rw [hpl]; rfl) hp hP.le_end h hzne
  have hz0 : WF0 z := ⟨hzne, fun p' hp' => by rw [g2] at hp'; cases hp'; exact g2', g1.imp le_of_lt, g4 hP.le_end⟩
  refine ⟨hz0, g1, w2, w3, ?_, fun u hu1 hu2 => ?_⟩
  · have : cur z.samples (mi E) = cur z.samples (pl E) := by
      have : ∀ l : List Sample, (∀ q ∈ l, q.time < E) → cur l (mi E) = cur l (pl E) := by
        intro l
        induction l with
        | nil => intro _; rfl
        | cons a m ih =>
          intro hm
          have ha := hm a (by simp)
          rw [cur, cur, ih fun q hq => hm q (by simp [hq])]
          simp [ha, ha.le]
      exact this _ g5
    simp only [Signal.v, val, this, mi_time, pl_time]
  · obtain ⟨c, c1, c2, c3, c4, c5, c6⟩ := w4 u hu1 hu2
    have hH : ∀ s, S ≤ s → s < E → (Holds ⟨L, S, E⟩ s ↔ PosAfter f s) := fun s a b =>
      holds_iff_posAfter hwf.toWF0 rfl (fun t a b => Signal.v_of_val (hval (pl t) (by simpa using a) (by simpa using b))) a b
    have ht : (1 : ℚ) / 10 ^ 14 = tol := by decide +kernel
    have hu := hH u hu1 hu2
    refine ⟨c, c1, c2, fun s a b => ?_, c6.imp id ?_, fun k => ?_, fun k => ?_⟩
    · rw [← hH s (c1.trans a) (b.trans_lt hu2), ← hu]
      exact c5 s a b
    · rintro ⟨e, e1, e2, e3⟩
      refine ⟨e, e1, e2, fun s a b => ?_⟩
      rw [← hH s (le_trans e1 a) (b.trans_le (c2.trans hu2.le)), ← hu]
      exact e3 s a b
    · rw [ht]; exact Signal.v_of_val (c3 (hu.2 k))
    · rw [ht]; exact Signal.v_of_val (c4 fun h => k (hu.1 h))

/-- A bound on the values before the end is one for all values, if there is no jump at the end. -/
theorem open_le {x : Signal} (hx : WF0 x) {s t w : ℚ} (hb : x.beginTime ≤ s) (hst : s < t)
    (he : x.v (mi t) = x.v (pl t)) (hw : ∀ u, s ≤ u → u < t → x.v (pl u) ≤ w) {σ : Pt} (h1 : pl s ≤ σ)
    (h2 : σ ≤ pl t) : x.v σ ≤ w := by
  have hend : x.v (mi t) ≤ w := left_le hx hb hst hw
  rcases Pt.cases σ with e | e
  · rw [e] at h1 h2 ⊢
    have h2' : σ.time ≤ t := by simpa using h2
    rcases h2'.lt_or_eq with h4 | h4
    · exact hw _ (by simpa using h1) h4
    · rw [h4, ← he]; exact hend
  · rw [e] at h1 h2 ⊢
    rw [pl_le_mi] at h1
    rw [le_pl_iff, mi_time] at h2
    exact left_le hx hb h1 fun q c d => hw q c (d.trans_le h2)

theorem open_ge {x : Signal} (hx : WF0 x) {s t w : ℚ} (hb : x.beginTime ≤ s) (hst : s < t)
    (he : x.v (mi t) = x.v (pl t)) (hw : ∀ u, s ≤ u → u < t → w ≤ x.v (pl u)) {σ : Pt} (h1 : pl s ≤ σ)
    (h2 : σ ≤ pl t) : w ≤ x.v σ := by
  have := open_le (x := computeNot x) (w := -w) hx.not hb hst (by rw [v_not, v_not, he])
    (fun u a b => by rw [v_not]; exact neg_le_neg (hw u a b)) h1 h2
  rw [v_not] at this
  linarith

/-- The prepared tree of a temporal operator over a comparison. -/
theorem left_prep {g : Globals} {m : Monitor} {n : ℕ} {s sa : St} {I : Ival} {k : Cmp} {l r : Tr} {t : ℚ}
    {op : St → Ival → Tr → Tr} (hop : op = .ev ∨ op = .alw)
    (h : LeftReady n m (op s I (.atom sa k l r)) t)
    (hab : bound m.params I.beginStr I.begin < bound m.params I.stopStr I.stop)
    (h0 : ∀ u, (u = t + bound m.params I.beginStr I.begin ∨ RowAt m.data u) →
      t + bound m.params I.beginStr I.begin ≤ u → u ≤ t + bound m.params I.stopStr I.stop →
        marginAt m.data m.params k l r u ≠ 0) :
    ∃ s1 c, Monitor.prepare m.params t t (op s I (.atom sa k l r)) = op s1 I c ∧ s1.start = t ∧ s1.stop = t ∧
      0 ≤ bound m.params I.beginStr I.begin ∧
      ∀ c' v, Tr.computeRob (m.envOf g) c = .ok (c', v) →
        WF0 c'.st.z ∧ SInc c'.st.z.samples ∧ c'.st.z.beginTime = t + bound m.params I.beginStr I.begin ∧
        c'.st.z.endTime = t + bound m.params I.stopStr I.stop ∧
        c'.st.z.v (mi (t + bound m.params I.stopStr I.stop)) = c'.st.z.v (pl (t + bound m.params I.stopStr I.stop)) ∧
        (∀ u, t + bound m.params I.beginStr I.begin ≤ u → u < t + bound m.params I.stopStr I.stop →
          LeftTime (marginAt m.data m.params k l r) (t + bound m.params I.beginStr I.begin) u (c'.st.z.v (pl u))) := by
  have hL : Lin (m.envOf g) n := ⟨h.interpol, h.rows, h.names⟩
  set a := bound m.params I.beginStr I.begin with hadef
  set b := bound m.params I.stopStr I.stop with hbdef
  have hp : (Monitor.prepare m.params t t (op s I (.atom sa k l r))).forgetB false =
      (op s I (.atom sa k l r)).forgetB false := Tr.forgetB_prepare (by simp [h.names]) t t _
  have hfr := fresh_prepare m.params (op s I (.atom sa k l r)) t t
  obtain ⟨s1, s2, l0, r0, hT⟩ : ∃ s1 s2 l0 r0, Monitor.prepare m.params t t (op s I (.atom sa k l r)) =
      op s1 I (.atom s2 k l0 r0) := by
    rcases hop with rfl | rfl <;> exact ⟨_, _, _, _, rfl⟩
  rw [hT] at hp hfr
  have hF : IsFormula n m.params (op s1 I (.atom s2 k l0 r0)) := by
    rw [← isFormula_forget, hp, isFormula_forget]; exact h.shape
  have hk : AtomsOk m.data m.params t t (op s1 I (.atom s2 k l0 r0)) := by
    rw [← atomsOk_forget, hp, atomsOk_forget]; exact h.atoms
  have hre : reach m.params (op s I (.atom sa k l r)) = b := by
    rcases hop with rfl | rfl <;> simp [reach, ← hbdef]
  have hlr : l0.forgetB false = l.forgetB false ∧ r0.forgetB false = r.forgetB false := by
    rcases hop with rfl | rfl <;> simpa [Tr.forgetB] using hp
  have hm : (fun u => margin k (expr .LINEAR m.data m.params l0 u) (expr .LINEAR m.data m.params r0 u)) =
      marginAt m.data m.params k l r := by
    funext u
    rw [marginAt, ← expr_forget _ _ _ l0, hlr.1, expr_forget, ← expr_forget _ _ _ r0, hlr.2, expr_forget]
  have hF' : 0 ≤ a ∧ IsFormula n m.params (.atom s2 k l0 r0) := by
    rcases hop with rfl | rfl <;> exact ⟨hF.1, hF.2.2⟩
  have hfr' : FreshSt t t s1 ∧ Fresh m.params (t + a) (t + b) (.atom s2 k l0 r0) := by
    rcases hop with rfl | rfl <;> exact hfr
  have hk' : AtomsOk m.data m.params (t + a) (t + b) (.atom s2 k l0 r0) := by
    rcases hop with rfl | rfl <;> exact hk
  refine ⟨s1, _, hT, hfr'.1.1, hfr'.1.2.1, hF'.1, fun c' v hc => ?_⟩
  have h1 := h.start
  have h2 := hF'.1
  obtain ⟨L, c1, c2, c3, c4⟩ := atom_left hL h.sem (S := t + a) (E := t + b)
    (covers_mono h.covers (by linarith) (by rw [hre])) (by linarith) (by linarith) hF'.2 hfr'.2 hk'
  have c2' : Pieces (marginAt m.data m.params k l r) (t + b) L := by rw [← hm]; exact c2
  exact left_values (by linarith) c1 c2' c3 h0 (fun row hrow => by
    rintro rfl
    have := h.rows.1 _ hrow
    simp at this) (c4 c' v hc)

/-- `eval_rob` of a temporal operator over a comparison, before the bounds. -/
theorem left_run {g g' : Globals} {m m' : Monitor} {T : Tr} {t v : ℚ} (hf : m.formula = some T)
    (hv : m.evalRob1 g t = (g', m', .ok v)) :
    ∃ T', Tr.computeRob (m.envOf g) (Monitor.prepare m.params t t T) = .ok (T', v) := by
  unfold Monitor.evalRob1 Monitor.evalRob at hv
  rw [hf] at hv
  simp only at hv
  split at hv
  · rename_i T' r lo up hr
    simp only [Monitor.run3, bind_eq_ok, Prod.exists] at hr
    obtain ⟨T1', w', k1, T2, lo', k2, T3, up', k3, k4⟩ := hr
    simp only [Except.ok.injEq, Prod.mk.injEq] at k4 hv
    refine ⟨T1', ?_⟩
    rw [← hv.2.2, ← k4.2.1]
    exact k1
  · simp at hv

theorem left_ev {g g' : Globals} {m m' : Monitor} {n : ℕ} {s sa : St} {I : Ival} {k : Cmp} {l r : Tr} {t v : ℚ}
    (h : LeftReady n m (.ev s I (.atom sa k l r)) t)
    (hab : bound m.params I.beginStr I.begin < bound m.params I.stopStr I.stop)
    (h0 : ∀ u, (u = t + bound m.params I.beginStr I.begin ∨ RowAt m.data u) →
      t + bound m.params I.beginStr I.begin ≤ u → u ≤ t + bound m.params I.stopStr I.stop →
        marginAt m.data m.params k l r u ≠ 0)
    (hB : tol + (bound m.params I.stopStr I.stop - bound m.params I.beginStr I.begin) ≤ g.B)
    (hv : m.evalRob1 g t = (g', m', .ok v)) :
    IsLUB (leftTimes (marginAt m.data m.params k l r) (t + bound m.params I.beginStr I.begin)
      (t + bound m.params I.beginStr I.begin) (t + bound m.params I.stopStr I.stop)) v := by
  obtain ⟨s1, c, e1, e2, e3, e4, e5⟩ := left_prep (g := g) (op := .ev) (Or.inl rfl) h hab h0
  obtain ⟨T', k1⟩ := left_run h.formula hv
  rw [e1] at k1
  simp only [Tr.computeRob, bind_eq_ok, Prod.exists, Except.ok.injEq, Prod.mk.injEq] at k1
  obtain ⟨c', w, k2, z, zc, k3, p, k4, -, rfl⟩ := k1
  obtain ⟨x1, x2, x3, x4, x5, x6⟩ := e5 c' w k2
  rw [ivA_eq, ivB_eq] at k3
  change Tr.evRob g.B s1 (bound m.params I.beginStr I.begin) (bound m.params I.stopStr I.stop) c'.st.z = _ at k3
  set a := bound m.params I.beginStr I.begin
  set b := bound m.params I.stopStr I.stop
  have hst : t + a < t + b := by linarith
  have hlow : ∀ u, t + a ≤ u → u < t + b → -g.B ≤ c'.st.z.v (pl u) := fun u c d => by
    have := (abs_le.1 (LeftTime.bound (x6 u c d))).1
    linarith
  have hT := evRob_once e2 e3 x1 x2 x3 x4 e4 hab.le (fun σ c d => by
    rw [x3] at c
    rw [x4] at d
    exact open_ge x1 x3.le hst x5 hlow c d) k3 k4
  refine ⟨?_, fun u hu => ?_⟩
  · rintro w ⟨u, c, d, hw⟩
    rw [LeftTime.unique hw (x6 u c d)]
    exact hT.2 _ (by simpa using c) (by simpa using d.le)
  · obtain ⟨σ, c, d, e⟩ := hT.1
    rw [← e]
    exact open_le x1 x3.le hst x5 (fun q c d => hu ⟨q, c, d, x6 q c d⟩) c d

theorem left_alw {g g' : Globals} {m m' : Monitor} {n : ℕ} {s sa : St} {I : Ival} {k : Cmp} {l r : Tr} {t v : ℚ}
    (h : LeftReady n m (.alw s I (.atom sa k l r)) t)
    (hab : bound m.params I.beginStr I.begin < bound m.params I.stopStr I.stop)
    (h0 : ∀ u, (u = t + bound m.params I.beginStr I.begin ∨ RowAt m.data u) →
      t + bound m.params I.beginStr I.begin ≤ u → u ≤ t + bound m.params I.stopStr I.stop →
        marginAt m.data m.params k l r u ≠ 0)
    (hB : tol + (bound m.params I.stopStr I.stop - bound m.params I.beginStr I.begin) ≤ g.B)
    (hv : m.evalRob1 g t = (g', m', .ok v)) :
    IsGLB (leftTimes (marginAt m.data m.params k l r) (t + bound m.params I.beginStr I.begin)
      (t + bound m.params I.beginStr I.begin) (t + bound m.params I.stopStr I.stop)) v := by
  obtain ⟨s1, c, e1, e2, e3, e4, e5⟩ := left_prep (g := g) (op := .alw) (Or.inr rfl) h hab h0
  obtain ⟨T', k1⟩ := left_run h.formula hv
  rw [e1] at k1
  simp only [Tr.computeRob, bind_eq_ok, Prod.exists, Except.ok.injEq, Prod.mk.injEq] at k1
  obtain ⟨c', w, k2, z, k3, p, k4, -, rfl⟩ := k1
  obtain ⟨x1, x2, x3, x4, x5, x6⟩ := e5 c' w k2
  rw [ivA_eq, ivB_eq] at k3
  change Tr.alwRob g.B s1 (bound m.params I.beginStr I.begin) (bound m.params I.stopStr I.stop) c'.st.z = _ at k3
  set a := bound m.params I.beginStr I.begin
  set b := bound m.params I.stopStr I.stop
  have hst : t + a < t + b := by linarith
  have hup : ∀ u, t + a ≤ u → u < t + b → c'.st.z.v (pl u) ≤ g.B := fun u c d => by
    have := (abs_le.1 (LeftTime.bound (x6 u c d))).2
    linarith
  have hT := alwRob_once e2 e3 x1 x2 x3 x4 e4 hab.le (fun σ c d => by
    rw [x3] at c
    rw [x4] at d
    exact open_le x1 x3.le hst x5 hup c d) k3 k4
  refine ⟨?_, fun u hu => ?_⟩
  · rintro w ⟨u, c, d, hw⟩
    rw [LeftTime.unique hw (x6 u c d)]
    exact hT.2 _ (by simpa using c) (by simpa using d.le)
  · obtain ⟨σ, c, d, e⟩ := hT.1
    rw [← e]
    exact open_ge x1 x3.le hst x5 (fun q c d => hu ⟨q, c, d, x6 q c d⟩) c d

end STLRom
