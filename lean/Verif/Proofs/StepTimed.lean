import Verif.Proofs.StepDup
import Verif.Proofs.Step

/-!
# Sliding windows over step signals

The bounded `eventually` of a step signal is again a step signal.
-/

namespace STLRom
open Signal Spec

theorem pk_ystrict {B e : ℚ} : ∀ (s : Sample) (l : List Sample) (w : ℚ), SInc (s :: l) →
    (∀ p ∈ s :: l, p.time ≤ e) → YStrict e (⟨s.time, w⟩ :: pk B e (s :: l))
  | s, [], w => by
    intro _ hle
    have := hle s (by simp)
    simp only [pk, YStrict, List.pairwise_cons, List.mem_singleton, forall_eq, List.not_mem_nil,
      IsEmpty.forall_iff, implies_true, List.Pairwise.nil, and_true]
    exact lt_or_eq_of_le this
  | s, s' :: l, w => by
    intro hs hle
    have ih := pk_ystrict (B := B) (e := e) s' l (fmax s'.value (s.valueAt s'.time))
      (List.pairwise_cons.1 hs).2 (fun p hp => hle p (by simp [hp]))
    refine List.pairwise_cons.2 ⟨fun p hp => ?_, ih⟩
    left
    have hss : s.time < s'.time := (List.pairwise_cons.1 hs).1 s' (by simp)
    rcases List.mem_cons.1 hp with rfl | hp
    · exact hss
    · show s.time < p.time
      rcases (pk_times (B := B) (e := e) s' l ((List.pairwise_cons.1 hs).2.imp fun h => h.le)
        (fun p hp => hle p (by simp [hp]))).2 p hp with h | ⟨q, hq, h⟩
      · rw [h]; exact hss.trans_le (hle s' (by simp))
      · rw [h]; exact (List.pairwise_cons.1 hs).1 q (by simp [hq])

theorem pk_count {B e : ℚ} : ∀ (s : Sample) (l : List Sample),
    (pk B e (s :: l)).countP (fun p => p.time = e) = l.countP (fun p => p.time = e) + 1
  | s, [] => by simp [pk]
  | s, s' :: l => by
    simp only [pk, List.countP_cons, pk_count s' l]
    omega

/-- The samples of a step signal cut in front and extended behind. -/
theorem resize_beyond_sinc {x z : Signal} {s t v : ℚ} (hx : WF0 x) (hs : SInc x.samples)
    (h0 : x.beginTime ≤ s) (hse : s ≤ x.endTime) (hte : x.endTime < t) (hcl : KeepsSlope x s)
    (h : resize x s t v = .ok z) :
    ∃ L, (z.samples = L ∨ z.samples = L ++ [⟨x.endTime, v, 0⟩]) ∧ SInc L ∧
      (∀ p ∈ L, p.time ≤ x.endTime) ∧ ∀ p ∈ L, p.time = s ∨ p ∈ x.samples := by
  obtain ⟨p0, r0, hl, hb⟩ := hx.exists_cons
  obtain ⟨q, r, h1, h2, h3, h4, h5, h6, h7, h8, h9, h10⟩ :=
    front_spec hl hx.sorted (hb.le.trans h0) (by rw [hb]; exact hcl)
  refine ⟨q :: r, ?_, h5 hs, ?_, ?_⟩
  · obtain ⟨b, hlast⟩ : ∃ b, (q :: r).getLast? = some b := ⟨_, List.getLast?_eq_some_getLast (by simp)⟩
    have htol : (0 : ℚ) < tol := by norm_num [tol]
    have hst : s ≤ t := hse.trans hte.le
    unfold resize at h
    rw [if_neg (by linarith), resizeFront_eq h0 hse, h1] at h
    simp only [bind, Except.bind, resizeBack, if_neg (not_lt.2 hst), if_pos hte, hlast] at h
    by_cases hbv : b.value ≠ v ∨ b.derivative ≠ 0
    · simp only [if_pos hbv, Except.ok.injEq] at h
      right
      rw [← h]; simp
    · simp only [if_neg hbv, Except.ok.injEq] at h
      left
      rw [← h]; simp
  · intro p hp
    rcases List.mem_cons.1 hp with rfl | hp
    · rw [h2]; exact hse
    · exact hx.le_end p (h7 p hp)
  · intro p hp
    rcases List.mem_cons.1 hp with rfl | hp
    · exact Or.inl h2
    · exact Or.inr (h7 p hp)

/-- The conjunction of two step signals on a proper interval is a step signal. -/
theorem computeAnd_step {x y z : Signal} (hx : WF0 x) (hy : WF0 y) (hfx : Flat x.samples)
    (hfy : Flat y.samples) (hsx : SInc x.samples) (hsy : SInc y.samples)
    (hlt : max x.beginTime y.beginTime < min x.endTime y.endTime) (h : computeAnd x y = .ok z) :
    Flat z.samples ∧ SInc z.samples := by
  have sk : ∀ {w : Signal}, WF0 w → Flat w.samples → SInc w.samples →
      w.beginTime < min x.endTime y.endTime →
      ∃ l, skip (min x.endTime y.endTime) w.samples.reverse = .ok l ∧ Flat l ∧
        l.Pairwise (fun p q => q.time < p.time) ∧ ∀ p ∈ l, p.time < min x.endTime y.endTime := by
    intro w hw hf hs hb
    obtain ⟨p, l, hl, hp⟩ := hw.exists_cons
    obtain ⟨l', h1, h2, h3, h4, h5⟩ := skip_spec (e := min x.endTime y.endTime) (l := w.samples.reverse)
      (List.pairwise_reverse.2 hw.sorted) ⟨p, by simp [hl], by rw [hp]; exact hb⟩
    obtain ⟨pre, h6⟩ := skip_suffix h1
    refine ⟨l', h1, fun q hq => hf q ?_, ?_, h4⟩
    · rw [← List.mem_reverse, h6]; simp [hq]
    · have := hs.reverse
      rw [h6] at this
      exact (List.pairwise_append.1 this).2.1
  obtain ⟨is, i1, i2, i3, i4⟩ := sk hx hfx hsx (lt_of_le_of_lt (le_max_left _ _) hlt)
  obtain ⟨js, j1, j2, j3, j4⟩ := sk hy hfy hsy (lt_of_le_of_lt (le_max_right _ _) hlt)
  simp only [computeAnd, fmax_eq, fmin_eq, i1, j1, bind, Except.bind] at h
  cases hp : partialAnd (max x.beginTime y.beginTime) [] is js (min x.endTime y.endTime) with
  | error f => simp [hp] at h
  | ok l =>
    simp only [hp] at h
    obtain ⟨a1, a2⟩ := partialAnd_step (e := min x.endTime y.endTime) is [] js _ l i2 i3 i4 j2 j3 j4 hlt
      le_rfl ⟨by simp [Flat], by simp [SInc], by simp⟩ hp
    exact simplify_step (x := ⟨l, _, _⟩) a1 a2 h

theorem sinc_not {w : Signal} (hw : SInc w.samples) : SInc (computeNot w).samples := by
  rw [computeNot_samples]
  exact List.pairwise_map.2 (by simpa [SInc] using hw)

theorem computeOr_step {x y z : Signal} (hx : WF0 x) (hy : WF0 y) (hfx : Flat x.samples)
    (hfy : Flat y.samples) (hsx : SInc x.samples) (hsy : SInc y.samples)
    (hlt : max x.beginTime y.beginTime < min x.endTime y.endTime) (h : computeOr x y = .ok z) :
    Flat z.samples ∧ SInc z.samples := by
  have e := computeAnd_not x y
  rw [h] at e
  obtain ⟨a, b⟩ := computeAnd_step hx.not hy.not hfx.not hfy.not (sinc_not hsx) (sinc_not hsy) hlt e
  have a' := Flat.not a
  have b' := sinc_not b
  rw [computeNot_computeNot] at a' b'
  exact ⟨a', b'⟩

theorem Flat.shift {x : Signal} (h : Flat x.samples) (a : ℚ) : Flat (x.shift a).samples := by
  intro p hp
  obtain ⟨q, hq, rfl⟩ := List.mem_map.1 hp
  exact h q hq

theorem keepsSlope_flat {x : Signal} (h : Flat x.samples) (s : ℚ) : KeepsSlope x s :=
  Or.inr (Or.inr fun p hp => h p (List.mem_of_getLast? hp))

/-- The sliding window over a step signal. -/
theorem computeBoundedEventually_step {x z : Signal} {B a : ℚ} (hx : WF0 x)
    (hs : SInc x.samples) (hf : Flat x.samples) (ha : 0 < a) (hab : x.beginTime + a < x.endTime)
    (hB : ∀ σ, pl x.beginTime ≤ σ → σ ≤ pl x.endTime → -B ≤ x.v σ)
    (h : computeBoundedEventually B x a = .ok z) : Flat z.samples ∧ SInc z.samples := by
  obtain ⟨f, l, hl, hfb⟩ := hx.exists_cons
  have hk := keepsSlope_flat hf (x.beginTime + a)
  have hbe : x.beginTime < x.endTime := by linarith
  have hpt := pk_times (B := B) (e := x.endTime) f l (hl ▸ hx.sorted) (hl ▸ hx.le_end)
  have hpf := pk_facts (B := B) (e := x.endTime) f l
  rw [← hl] at hpt hpf
  have hs' := hs
  rw [hl] at hs'
  have htidy : Tidy x.endTime (⟨f.time, f.value⟩ :: pk B x.endTime x.samples) := by
    refine List.pairwise_cons.2 ⟨fun p hp heq => ?_, ?_⟩
    · have heq : f.time = p.time := heq
      rcases hpt.2 p hp with h | ⟨q, hq, h⟩
      · rw [h, hfb] at heq; exact absurd heq hbe.ne
      · rw [h] at heq; exact absurd heq ((List.pairwise_cons.1 hs').1 q hq).ne
    rw [hl]
    refine pk_tidy_sinc f l hs' (hl ▸ hx.le_end) ?_
    intro p hp hpe
    rw [← hl] at hp
    have := Signal.v_of_val (hs.val_self p hp)
    rw [← this]
    exact hB _ (by rw [hpe]; simpa using hbe.le) (by rw [hpe])
  have hyb : ∀ p ∈ pk B x.endTime x.samples, x.beginTime ≤ p.time ∧ p.time ≤ x.endTime := by
    intro p hp
    rcases hpt.2 p hp with h | ⟨q, hq, h⟩
    · rw [h]; exact ⟨hbe.le, le_rfl⟩
    · rw [h]
      exact ⟨hx.begin_le q (by simp [hl, hq]), hx.le_end q (by simp [hl, hq])⟩
  obtain ⟨pe, hpe, hpee, qe, hqe, hqv⟩ := hpf.1
  obtain ⟨z1, p1, p2, p3, p4, p5, p6, p7, p8, p9⟩ := plateauMax_spec' hl hfb ha hab.le hpt.1 htidy hyb
    ⟨pe, hpe, hpee⟩
  obtain ⟨z2, r1, r2, r3, r4, r5, r6, r7, r8⟩ := resize_beyond (s := x.beginTime + a)
    (t := x.endTime + a) (-B) hx (by linarith) hab.le (by linarith) hk
  have hsh := r4.shift (-a)
  have hsb : (z2.shift (-a)).beginTime = x.beginTime := by
    show z2.beginTime + -a = _; rw [r2]; ring
  have hse : (z2.shift (-a)).endTime = x.endTime := by
    show z2.endTime + -a = _; rw [r3]; ring
  have hfar : ∀ τ, pl x.beginTime ≤ τ → (z2.shift (-a)).v τ = farVal x B a τ := by
    intro τ h1
    rw [v_shift, neg_neg]
    unfold farVal
    split_ifs with h
    · unfold Signal.v
      rw [r5 _ (by rw [← pl_shift, Pt.shift_le_shift]; exact h1) h]
    · apply Signal.v_of_val
      rw [r6]
      rw [not_le, mi_lt_iff] at h; exact h
  have hmax3 : max (z2.shift (-a)).beginTime z1.beginTime = x.beginTime := by rw [hsb, p2, max_self]
  have hmin3 : min (z2.shift (-a)).endTime z1.endTime = x.endTime := by rw [hse, p3, min_self]
  obtain ⟨z3, o1, o2, _, _⟩ := computeOr_spec' (P := fun _ _ => True) hsh p4
    (by rw [hmax3, hmin3]; exact hbe)
    ⟨fun _ _ _ => trivial, fun _ _ _ _ => trivial, fun _ _ _ _ _ _ _ _ => ⟨fun _ _ _ => trivial, trivial⟩⟩
  rw [hmax3, hmin3] at o2
  obtain ⟨L, hL1, hL2, hL3, hL4⟩ := resize_beyond_sinc hx hs (by linarith) hab.le (by linarith) hk r1
  set T0 := x.endTime - a with hT0
  have hTa : T0 + a = x.endTime := by rw [hT0]; ring
  have hbT : x.beginTime < T0 := by rw [hT0]; linarith
  have hTe : T0 < x.endTime := by rw [hT0]; linarith
  -- peaks at the end are seen at `T0`
  have hpk : ∀ p ∈ pk B x.endTime x.samples, p.time = x.endTime → p.value ≤ z1.v (pl T0) := by
    intro p hp hpt
    have hlive : Live a (pl T0) p := by
      refine ⟨?_, ?_⟩
      · rw [hpt]; simpa using hTe
      · rw [hpt]; simp [hTa]
    rcases p5 (pl T0) (by simpa using hbT.le) (by simpa using hTe) with ⟨_, _, _, _, hu⟩ | ⟨_, hn⟩
    · exact hu p hp hlive
    · exact absurd hlive (hn p hp)
  have hBp : -B ≤ z1.v (pl T0) := by
    refine le_trans ?_ (hpk pe hpe hpee)
    have hqm : qe ∈ x.samples := List.mem_of_getLast? hqe
    have := Signal.v_of_val (hs.val_self qe hqm)
    rw [flat_valueAt (hf _ hqm)] at hqv
    rw [← this] at hqv
    exact (hB _ (by simpa using hx.begin_le qe hqm) (by simpa using hx.le_end qe hqm)).trans hqv
  have hz3 : Flat z3.samples ∧ SInc z3.samples := by
    refine computeOr_dup (T0 := T0) hsh p4 ((resize_flat hf r1).shift _) p7 hsb hse p2 p3 hbT hTe
      ?_ ?_ ?_ ?_ ?_ ?_ ?_ o1
    · refine List.pairwise_map.2 ?_
      have e1 : L.Pairwise fun p q => p.time < q.time ∨ p.time = x.endTime ∧ q.time = x.endTime :=
        hL2.imp fun h => Or.inl h
      have e2 : z2.samples.Pairwise
          fun p q => p.time < q.time ∨ p.time = x.endTime ∧ q.time = x.endTime := by
        rcases hL1 with e | e
        · rw [e]; exact e1
        · rw [e]
          refine List.pairwise_append.2 ⟨e1, by simp, fun p hp q hq => ?_⟩
          simp only [List.mem_singleton] at hq
          subst hq
          rcases lt_or_eq_of_le (hL3 p hp) with h | h
          · exact Or.inl h
          · exact Or.inr ⟨h, rfl⟩
      refine e2.imp fun {p q} h => ?_
      rcases h with h | ⟨h, h'⟩
      · left; show p.time + -a < q.time + -a; linarith
      · right; refine ⟨?_, ?_⟩
        · show p.time + -a = T0; rw [h, hT0]; ring
        · show q.time + -a = T0; rw [h', hT0]; ring
    · refine (p8 ?_).imp fun {p q} h => ?_
      · rw [hl]; exact pk_ystrict f l _ hs' (hl ▸ hx.le_end)
      · rcases h with h | h | h | h
        · exact Or.inl h
        · exact Or.inr (Or.inl h)
        · exact Or.inr (Or.inr (Or.inl (by rw [hT0, ← h]; ring)))
        · exact Or.inr (Or.inr (Or.inr h))
    · intro j hj c d
      exact (p6 j hj c d).unique (p5 _ (by simpa using c.le) (by simpa using d))
    · -- left limit
      rw [hfar _ (by simpa using hbT)]
      unfold farVal
      rw [if_pos (by simp [hTa]), mi_shift, hTa]
      have hv := hx.val (τ := mi x.endTime) (by rw [pl_le_mi]; exact hbe)
      rcases hc : cur x.samples (mi x.endTime) with _ | p
      · simp [val, hc] at hv
      have hxv : x.v (mi x.endTime) = p.valueAt x.endTime := by
        apply Signal.v_of_val; simp [val, hc]
      obtain ⟨l1, l2, k1, k2, k3⟩ := cur_split hc
      rw [hxv]
      cases l2 with
      | nil =>
        have : x.samples.getLast? = some p := by rw [k1]; simp
        rw [this] at hqe
        simp only [Option.some.injEq] at hqe
        rw [hqe]
        exact hqv.trans (hpk pe hpe hpee)
      | cons n l2 =>
        obtain ⟨p', c1, c2, c3⟩ := hpf.2.2 l1 l2 p n k1
        have hn : n.time = x.endTime := by
          refine le_antisymm (hx.le_end n (by rw [k1]; simp)) ?_
          have := k3 n (by simp)
          rw [mi_lt_iff] at this
          simpa using this
        rw [hn] at c2 c3
        exact c3.trans (hpk p' c1 c2)
    · intro i hi hit
      obtain ⟨q, hq, rfl⟩ := List.mem_map.1 hi
      have hqt : q.time = x.endTime := by
        have : q.time + -a = T0 := hit
        rw [hT0] at this; linarith
      show q.value ≤ _
      have hin : q ∈ x.samples ∨ q = ⟨x.endTime, -B, 0⟩ := by
        rcases r7 q hq with h | h | ⟨h, _⟩
        · exact Or.inl h
        · exact Or.inr h
        · exfalso; linarith
      rcases hin with hin | hin
      · rw [hl] at hin
        rcases List.mem_cons.1 hin with rfl | hin
        · exfalso; linarith
        · obtain ⟨p', c1, c2, c3⟩ := hpf.2.1 q hin
          exact c3.trans (hpk p' c1 (c2.trans hqt))
      · rw [hin]; exact hBp
    · rw [hfar _ (by simpa using hbT.le)]
      unfold farVal
      rw [if_neg (by simp [hTa])]
      exact hBp
    · have e1 : (z2.shift (-a)).samples.countP (fun p => p.time = T0) =
          z2.samples.countP (fun p => p.time = x.endTime) := by
        simp only [Signal.shift, List.countP_map]
        refine List.countP_congr fun p _ => ?_
        simp only [Function.comp, decide_eq_true_eq, hT0]
        constructor <;> intro h <;> linarith
      have e2 : L.countP (fun p => p.time = x.endTime) ≤ l.countP (fun p => p.time = x.endTime) := by
        have hone : L.countP (fun p => p.time = x.endTime) ≤ 1 := by
          clear hL1 hL3 hL4
          induction L with
          | nil => simp
          | cons c L ih =>
            have hc := List.pairwise_cons.1 hL2
            by_cases hce : c.time = x.endTime
            · have : L.countP (fun p => p.time = x.endTime) = 0 := by
                rw [List.countP_eq_zero]
                intro p hp
                have := hc.1 p hp
                simp only [decide_eq_true_eq]
                intro h; linarith
              simp [this, hce]
            · simpa [List.countP_cons, hce] using ih hc.2
        by_cases hex : ∃ p ∈ L, p.time = x.endTime
        · obtain ⟨p, hp, hpt⟩ := hex
          refine hone.trans ?_
          rw [Nat.succ_le_iff, List.countP_pos_iff]
          rcases hL4 p hp with h | h
          · exfalso; linarith
          · rw [hl] at h
            rcases List.mem_cons.1 h with rfl | h
            · exfalso; linarith
            · exact ⟨p, h, by simpa using hpt⟩
        · have : L.countP (fun p => p.time = x.endTime) = 0 := by
            rw [List.countP_eq_zero]
            intro p hp
            simp only [decide_eq_true_eq]
            exact fun h => hex ⟨p, hp, h⟩
          omega
      have e3 : z2.samples.countP (fun p => p.time = x.endTime) ≤
          L.countP (fun p => p.time = x.endTime) + 1 := by
        rcases hL1 with e | e
        · rw [e]; omega
        · rw [e, List.countP_append]; simp
      have e4 := p9 T0 hbT
      rw [hTa, hl, pk_count] at e4
      omega
  have hmax4 : max x.beginTime z3.beginTime = x.beginTime := by rw [o2.begin_eq, max_self]
  have hmin4 : min x.endTime z3.endTime = x.endTime := by rw [o2.end_eq, min_self]
  obtain ⟨z4, q1, q2, _, _⟩ := computeOr_spec' (P := fun _ _ => True) hx o2.wf.toWF0
    (by rw [hmax4, hmin4]; exact hbe)
    ⟨fun _ _ _ => trivial, fun _ _ _ _ => trivial, fun _ _ _ _ _ _ _ _ => ⟨fun _ _ _ => trivial, trivial⟩⟩
  have hz4 := computeOr_step hx o2.wf.toWF0 hf hz3.1 hs hz3.2 (by rw [hmax4, hmin4]; exact hbe) q1
  simp only [computeBoundedEventually, p1, r1, o1, q1, bind, Except.bind] at h
  have hw := q2.wf.toWF0
  exact simplify_step ⟨hz4.1, hz4.2, fun q hq => ⟨hw.begin_le q hq, hw.le_end q hq⟩⟩ hw.exists_cons h

/-- The timed `eventually` of a step signal on a proper interval. -/
theorem computeTimedEventually_step {old x z : Signal} {B a b : ℚ} (hx : WF0 x)
    (hs : SInc x.samples) (hf : Flat x.samples) (ha : 0 ≤ a)
    (hlt : a < b → x.beginTime + (b - a) < x.endTime)
    (hB : ∀ σ, pl x.beginTime ≤ σ → σ ≤ pl x.endTime → -B ≤ x.v σ)
    (h : computeTimedEventually B old x a b = .ok z) : Flat z.samples ∧ SInc z.samples := by
  have hy : (if 0 < a then shift x (-a) else x) = shift x (-a) := by
    split_ifs with h
    · rfl
    · rw [le_antisymm (not_lt.1 h) ha, neg_zero, Signal.shift_zero]
  have hyb : (x.shift (-a)).beginTime = x.beginTime - a := by simp [Signal.shift, sub_eq_add_neg]
  have hye : (x.shift (-a)).endTime = x.endTime - a := by simp [Signal.shift, sub_eq_add_neg]
  simp only [computeTimedEventually, if_neg hx.ne, hy] at h
  by_cases h0 : b - a ≤ 0
  · rw [if_pos h0] at h
    simp only [Except.ok.injEq] at h
    rw [← h]
    exact ⟨hf.shift _, hs.shift _⟩
  · have hl := hlt (by linarith)
    rw [if_neg h0, if_neg (by rw [hyb, hye]; linarith)] at h
    refine computeBoundedEventually_step (hx.shift _) (hs.shift _) (hf.shift _) (by linarith)
      (by rw [hyb, hye]; linarith) ?_ h
    intro σ h1 h2
    rw [v_shift, neg_neg]
    rw [hyb] at h1
    rw [hye] at h2
    refine hB _ ?_ ?_
    · have := (Pt.shift_le_shift (a := a)).2 h1
      simpa using this
    · have := (Pt.shift_le_shift (a := a)).2 h2
      simpa using this

theorem computeTimedGlobally_step {old x z : Signal} {B a b : ℚ} (hx : WF0 x)
    (hs : SInc x.samples) (hf : Flat x.samples) (ha : 0 ≤ a)
    (hlt : a < b → x.beginTime + (b - a) < x.endTime)
    (hB : ∀ σ, pl x.beginTime ≤ σ → σ ≤ pl x.endTime → x.v σ ≤ B)
    (h : computeTimedGlobally B old x a b = .ok z) : Flat z.samples ∧ SInc z.samples := by
  have e := computeTimedGlobally_not B old (computeNot x) a b
  rw [computeNot_computeNot, h] at e
  cases hz : computeTimedEventually B old (computeNot x) a b with
  | error f => rw [hz] at e; simp [Except.map] at e
  | ok w =>
    rw [hz] at e
    have hw : z = computeNot w := by simpa [Except.map] using e
    obtain ⟨c, d⟩ := computeTimedEventually_step hx.not (sinc_not hs) hf.not ha hlt
      (fun σ a b => by rw [v_not]; exact neg_le_neg (hB σ a b)) hz
    rw [hw]
    exact ⟨c.not, sinc_not d⟩

theorem SNode.supw {x : Signal} {S E u w B v : ℚ} {f : ℚ → EReal} (hx : SNode B x S E)
    (hf : Is x S E f) (hu : S ≤ u) (hw : w ≤ E) (h : Top x.v (pl u) (pl w) v) :
    ⨆ r ∈ Set.Icc u w, f r = er v := by
  refine le_antisymm (iSup₂_le fun r hr => ?_) ?_
  · rw [hf r (hu.trans hr.1) (hr.2.trans hw), er_le]
    exact h.2 _ (by simpa using hr.1) (by simpa using hr.2)
  · obtain ⟨σ, h1, h2, h3⟩ := h.1
    have key : ∀ r, u ≤ r → r ≤ w → x.v (pl r) = v → er v ≤ ⨆ r ∈ Set.Icc u w, f r := by
      intro r a b c
      rw [← c, ← hf r (hu.trans a) (b.trans hw)]
      exact le_iSup₂_of_le r ⟨a, b⟩ le_rfl
    rcases Pt.cases σ with e | e
    · rw [e] at h1 h2 h3
      exact key _ (by simpa using h1) (by simpa using h2) h3
    · rw [e] at h1 h2 h3
      rw [pl_le_mi] at h1
      rw [le_pl_iff, mi_time] at h2
      obtain ⟨r, r1, r2, r3⟩ := hx.left hu h1 (h2.trans hw)
      exact key r r1 (r2.le.trans h2) (by rw [r3 r le_rfl r2, h3])

/-- The node of a timed `eventually`. -/
theorem SNode.ev {old x : Signal} {B a b S E : ℚ} {f : ℚ → EReal}
    (hx : SNode B x (S + a) (E + b)) (hSE : S ≤ E)
    (hf : Is x (S + a) (E + b) f) (ha : 0 ≤ a) (hab : a ≤ b) :
    ∃ z, computeTimedEventually B old x a b = .ok z ∧ z.beginTime = S ∧ E ≤ z.endTime ∧
      ∃ z', Signal.resize z S E 0 = .ok z' ∧ SNode B z' S E ∧
        Is z' S E (fun t => ⨆ r ∈ Set.Icc (t + a) (t + b), f r) := by
  rcases eq_or_lt_of_le hSE with rfl | hSE
  · obtain ⟨z, h1, h2, z', h3⟩ := hx.evz (old := old) hf ha hab
    refine ⟨z, h1, ?_, h2, z', h3⟩
    obtain ⟨w, k1, k2, _⟩ := computeTimedEventually_spec (B := B) (old := old) hx.wf
      (Or.inl hx.sinc) ha hab (fun h => by rw [hx.b, hx.e] at h; linarith)
      (fun σ c d => (hx.bdp (by rw [← hx.b]; exact c) (by rw [← hx.e]; exact d)).1)
    rw [h1, Except.ok.injEq] at k1
    rw [k1, k2, hx.b]; ring
  · have hfl := hx.flat (by linarith)
    have hB : ∀ σ, pl x.beginTime ≤ σ → σ ≤ pl x.endTime → -B ≤ x.v σ := fun σ c d =>
      (hx.bdp (by rw [← hx.b]; exact c) (by rw [← hx.e]; exact d)).1
    obtain ⟨z, h1, h2, h3, h4, h5, _⟩ := computeTimedEventually_spec (B := B) (old := old) hx.wf
      (Or.inl hx.sinc) ha hab (fun _ _ => keepsSlope_flat hfl _) hB
    obtain ⟨s1, s2⟩ := computeTimedEventually_step hx.wf hx.sinc hfl ha
      (fun h => by rw [hx.b, hx.e]; linarith) hB h1
    rw [hx.b, add_sub_cancel_right] at h2
    rw [hx.e] at h3
    have hT : ∀ t, S ≤ t → t ≤ E → Top x.v (pl (t + a)) (pl (t + b)) (z.v (pl t)) := by
      intro t c d
      have := h5 (pl t) (by rw [h2]; simpa using c) (by rw [h3, pl_le_pl]; linarith)
        (fun _ h => by left; rw [h3, pl_le_mi]; linarith)
      rw [hx.e] at this
      simp only [pl_shift] at this
      rwa [min_eq_left (by simpa using d)] at this
    obtain ⟨z', c1, c2, c3, c4, c5, c6, _⟩ := resize_inside (x := z) (s := S) (t := E) 0 h4.1.wfb
      h2.le hSE.le (by rw [h3]; linarith) (Or.inl h2)
    have hv : ∀ t, S ≤ t → t ≤ E → z'.v (pl t) = z.v (pl t) := by
      intro t c d
      unfold Signal.v
      rw [c5 (pl t) (by simpa using c) (by simpa using d)]
    refine ⟨z, h1, h2, by rw [h3]; linarith, z', c1,
      ⟨c2, c3, c4, c6 s2, fun _ => resize_flat s1 c1, fun t c d => ?_⟩, fun t c d => ?_⟩
    · rw [hv t c d]
      obtain ⟨σ, k1, k2, k3⟩ := (hT t c d).1
      rw [← k3]
      exact hx.bdp (le_trans (by simpa using c) k1) (k2.trans (by simpa using d))
    · rw [hv t c d]
      exact hx.supw hf (by linarith) (by linarith) (hT t c d)

theorem neg_sup_ereal {ι : Sort*} (g : ι → EReal) : -(⨆ i, g i) = ⨅ i, -g i :=
  OrderIso.map_iSup EReal.negOrderIso g

/-- The node of a timed `globally`. -/
theorem SNode.alw {old x : Signal} {B a b S E : ℚ} {f : ℚ → EReal}
    (hx : SNode B x (S + a) (E + b)) (hSE : S ≤ E)
    (hf : Is x (S + a) (E + b) f) (ha : 0 ≤ a) (hab : a ≤ b) :
    ∃ z, computeTimedGlobally B old x a b = .ok z ∧ z.beginTime = S ∧ E ≤ z.endTime ∧
      ∃ z', Signal.resize z S E 0 = .ok z' ∧ SNode B z' S E ∧
        Is z' S E (fun t => ⨅ r ∈ Set.Icc (t + a) (t + b), f r) := by
  obtain ⟨z, h1, h2, h3, z', h4, h5, h6⟩ := hx.not.ev (old := old) hSE hf.not ha hab
  refine ⟨computeNot z, ?_, h2, h3, computeNot z', ?_, h5.not, ?_⟩
  · have := computeTimedGlobally_not B old (computeNot x) a b
    rw [computeNot_computeNot, h1] at this
    exact this
  · have := resize_not z S E 0
    rw [neg_zero, h4] at this
    exact this
  · intro t c d
    rw [v_not, er_neg, ← h6 t c d]
    have e : -(⨆ r ∈ Set.Icc (t + a) (t + b), -f r) = ⨅ r ∈ Set.Icc (t + a) (t + b), f r := by
      simp only [neg_sup_ereal, neg_neg]
    exact e.symm

end STLRom
