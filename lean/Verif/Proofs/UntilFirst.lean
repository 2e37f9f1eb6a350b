import Verif.Proofs.Until

/-!
# The first value of the bounded operators and of timed `until`

At the begin time of the operand the bounded operators are right even when they lose a slope.
-/

namespace STLRom
open Signal

/-- `resize` beyond the end, without a condition on slopes. -/
theorem resize_beyond_first {x : Signal} {s t : ℚ} (v : ℚ) (hx : WF0 x)
    (h0 : x.beginTime ≤ s) (hse : s ≤ x.endTime) (hte : x.endTime < t) :
    ∃ z, resize x s t v = .ok z ∧ z.beginTime = s ∧ z.endTime = t ∧ WF0 z ∧
      (s < x.endTime → z.v (pl s) = x.v (pl s)) ∧
      (∀ τ, pl x.endTime ≤ τ → val z.samples τ = some v) := by
  by_cases hk : KeepsSlope x s
  · obtain ⟨z, h1, h2, h3, h4, h5, h6, _⟩ := resize_beyond v hx h0 hse hte hk
    refine ⟨z, h1, h2, h3, h4, fun h => ?_, h6⟩
    unfold Signal.v
    rw [h5 _ le_rfl (by simpa using h)]
  · unfold KeepsSlope at hk
    push Not at hk
    obtain ⟨hk1, hk2, f, hf, _⟩ := hk
    obtain ⟨pre, rest, g1, g2, g3, g4⟩ := trimFront_spec s x.samples Sample.zero hx.sorted
    have hrest : rest = [] := by
      cases rest with
      | nil => rfl
      | cons p r => exact absurd (hk2 p (by rw [g1]; simp)) (not_lt.2 (g3 p (by simp)))
    rw [hrest, List.append_nil] at g1
    rw [hrest, ← g1, hf] at g4
    have hfl : frontList s x.samples = [⟨s, f.valueAt s, 0⟩] := by
      unfold frontList; rw [g4]; rfl
    have hfs := hk2 f (List.mem_of_getLast? hf)
    have hxv : x.v (pl s) = f.valueAt s := by
      apply Signal.v_of_val
      unfold val
      rw [val_append_last hf (by simpa using hfs.le)]
      rfl
    have htol : (0 : ℚ) < tol := by norm_num [tol]
    by_cases hv : f.valueAt s ≠ v
    · refine ⟨⟨[⟨s, f.valueAt s, 0⟩, ⟨x.endTime, v, 0⟩], s, t⟩, ?_, rfl, rfl,
        ⟨by simp, by simp, by simpa [Sorted] using hse, ?_⟩, ?_, ?_⟩
      · unfold resize
        rw [if_neg (by linarith), resizeFront_eq h0 hse, hfl]
        simp only [bind, Except.bind, resizeBack, if_neg (not_lt.2 (hse.trans hte.le)), if_pos hte,
          List.getLast?_singleton, if_pos (Or.inl hv : _ ∨ (0:ℚ) ≠ 0)]
        simp
      · intro p hp
        simp only [List.mem_cons, List.not_mem_nil, or_false] at hp
        rcases hp with rfl | rfl
        · exact hse.trans hte.le
        · exact hte.le
      · intro h
        rw [hxv]
        apply Signal.v_of_val
        simp [val, cur, not_le.2 h, Sample.valueAt]
      · intro τ hτ
        simp [val, cur, hτ, Sample.valueAt]
    · push Not at hv
      refine ⟨⟨[⟨s, f.valueAt s, 0⟩], s, t⟩, ?_, rfl, rfl,
        ⟨by simp, by simp, by simp [Sorted], ?_⟩, ?_, ?_⟩
      · unfold resize
        rw [if_neg (by linarith), resizeFront_eq h0 hse, hfl]
        simp only [bind, Except.bind, resizeBack, if_neg (not_lt.2 (hse.trans hte.le)), if_pos hte,
          List.getLast?_singleton]
        rw [if_neg (by simp [hv])]
        simp
      · intro p hp
        simp only [List.mem_cons, List.not_mem_nil, or_false] at hp
        subst hp
        exact hse.trans hte.le
      · intro h
        rw [hxv]
        apply Signal.v_of_val
        simp [val, cur, Sample.valueAt]
      · intro τ hτ
        have : pl s ≤ τ := le_trans (by simpa using hse) hτ
        simp [val, cur, this, Sample.valueAt]
        simpa [Sample.valueAt] using hv

/-- Tidiness of the peaks, from the proof of the general theorem. -/
theorem peaks_tidy {x : Signal} {B : ℚ} {f : Sample} {l : List Sample} (hx : WF0 x)
    (hg : SInc x.samples ∨ CG x) (hbe : x.beginTime < x.endTime) (hl : x.samples = f :: l)
    (hfb : f.time = x.beginTime)
    (hB : ∀ σ, pl x.beginTime ≤ σ → σ ≤ pl x.endTime → -B ≤ x.v σ) :
    Tidy x.endTime (⟨f.time, f.value⟩ :: pk B x.endTime x.samples) := by
  have hBe := hB (pl x.endTime) (by simpa using hbe.le) le_rfl
  have hpt := pk_times (B := B) (e := x.endTime) f l (hl ▸ hx.sorted) (hl ▸ hx.le_end)
  rw [← hl] at hpt
  rcases hg with hg | hg
  · refine List.pairwise_cons.2 ⟨fun p hp heq => ?_, ?_⟩
    · have heq : f.time = p.time := heq
      have hs := hg
      rw [hl] at hs
      rcases hpt.2 p hp with h | ⟨q, hq, h⟩
      · rw [h, hfb] at heq; exact absurd heq hbe.ne
      · rw [h] at heq; exact absurd heq ((List.pairwise_cons.1 hs).1 q hq).ne
    rw [hl]
    refine pk_tidy_sinc f l (hl ▸ hg) (hl ▸ hx.le_end) ?_
    intro p hp hpe
    rw [← hl] at hp
    have := Signal.v_of_val (hg.val_self p hp)
    rw [← this]
    exact hB _ (by rw [hpe]; simpa using hbe.le) (by rw [hpe])
  · refine List.pairwise_cons.2 ⟨fun p hp heq => ?_, pk_tidy_cg hx hg hBe⟩
    have heq : f.time = p.time := heq
    have h1 := pk_cg hx hg hBe [] f l hl p (hl ▸ hp)
    have h2 := hg.vc f (by simp [hl])
    rw [← heq, ← h2] at h1
    exact ⟨h1.le, fun _ => h1⟩

/-- The bounded `eventually` at the begin time, where a lost slope does not matter; the window
may be as long as the signal. -/
theorem computeBoundedEventually_first {x : Signal} {B a : ℚ} (hx : WF0 x)
    (hg : SInc x.samples ∨ CG x) (ha : 0 < a) (hab : x.beginTime + a ≤ x.endTime)
    (hB : ∀ σ, pl x.beginTime ≤ σ → σ ≤ pl x.endTime → -B ≤ x.v σ) :
    ∃ z, computeBoundedEventually B x a = .ok z ∧ z.beginTime = x.beginTime ∧
      z.endTime = x.endTime ∧ WF z ∧
      Top x.v (pl x.beginTime) (pl (x.beginTime + a)) (z.v (pl x.beginTime)) := by
  obtain ⟨f, l, hl, hfb⟩ := hx.exists_cons
  have hbe : x.beginTime < x.endTime := by linarith
  have hGC : GC x := hg.elim SInc.gc CG.gc
  have hpt := pk_times (B := B) (e := x.endTime) f l (hl ▸ hx.sorted) (hl ▸ hx.le_end)
  have hpf := pk_facts (B := B) (e := x.endTime) f l
  rw [← hl] at hpt hpf
  have htidy := peaks_tidy hx hg hbe hl hfb hB
  have hyb : ∀ p ∈ pk B x.endTime x.samples, x.beginTime ≤ p.time ∧ p.time ≤ x.endTime := by
    intro p hp
    rcases hpt.2 p hp with h | ⟨q, hq, h⟩
    · rw [h]; exact ⟨hbe.le, le_rfl⟩
    · rw [h]
      exact ⟨hx.begin_le q (by simp [hl, hq]), hx.le_end q (by simp [hl, hq])⟩
  obtain ⟨pe, hpe, hpee, _⟩ := hpf.1
  obtain ⟨z1, p1, p2, p3, p4, p5, p6, p7⟩ := plateauMax_spec hl hfb ha hab hpt.1 htidy hyb
    ⟨pe, hpe, hpee⟩
  obtain ⟨z2, r1, r2, r3, r4, r5, r6⟩ := resize_beyond_first (s := x.beginTime + a)
    (t := x.endTime + a) (-B) hx (by linarith) hab (by linarith)
  have hsb : (z2.shift (-a)).beginTime = x.beginTime := by
    show z2.beginTime + -a = _; rw [r2]; ring
  have hse : (z2.shift (-a)).endTime = x.endTime := by
    show z2.endTime + -a = _; rw [r3]; ring
  have hfar : (z2.shift (-a)).v (pl x.beginTime) = farVal x B a (pl x.beginTime) := by
    rw [v_shift, neg_neg]
    unfold farVal
    rw [pl_shift]
    split_ifs with h
    · exact r5 (by simpa using h)
    · apply Signal.v_of_val
      rw [r6]
      rw [not_le, mi_lt_iff] at h; exact h
  have hmax3 : max (z2.shift (-a)).beginTime z1.beginTime = x.beginTime := by rw [hsb, p2, max_self]
  have hmin3 : min (z2.shift (-a)).endTime z1.endTime = x.endTime := by rw [hse, p3, min_self]
  obtain ⟨z3, o1, o2⟩ := computeOr_spec (r4.shift (-a)) p4 (by rw [hmax3, hmin3]; exact hbe)
  rw [hmax3, hmin3] at o2
  have hmax4 : max x.beginTime z3.beginTime = x.beginTime := by rw [o2.begin_eq, max_self]
  have hmin4 : min x.endTime z3.endTime = x.endTime := by rw [o2.end_eq, min_self]
  obtain ⟨z4, q1, q2⟩ := computeOr_spec hx o2.wf.toWF0 (by rw [hmax4, hmin4]; exact hbe)
  rw [hmax4, hmin4] at q2
  obtain ⟨z, s1, s2, s3, s4, s5, s6⟩ := simplify_cg q2.wf
  rw [q2.end_eq] at s5
  refine ⟨z, ?_, by rw [s2, q2.begin_eq], by rw [s3, q2.end_eq], s4, ?_⟩
  · simp only [computeBoundedEventually, p1, r1, o1, q1, s1, bind, Except.bind]
  · have h2 : pl x.beginTime ≤ mi x.endTime := by simpa using hbe
    rw [s5 _ (h2.trans (by simp)), q2.val _ le_rfl h2, o2.val _ le_rfl h2, hfar]
    have := window_top hx hGC ha hB le_rfl h2 (p5 _ le_rfl h2)
    rwa [pl_shift, min_eq_left (by simpa using hab)] at this

/-- The bounded `globally` at the begin time. -/
theorem computeBoundedGlobally_first {x : Signal} {B a : ℚ} (hx : WF0 x)
    (hg : SInc x.samples ∨ CG x) (ha : 0 < a) (hab : x.beginTime + a ≤ x.endTime)
    (hB : ∀ σ, pl x.beginTime ≤ σ → σ ≤ pl x.endTime → x.v σ ≤ B) :
    ∃ z, computeBoundedGlobally B x a = .ok z ∧ z.beginTime = x.beginTime ∧
      z.endTime = x.endTime ∧ WF z ∧
      Bot x.v (pl x.beginTime) (pl (x.beginTime + a)) (z.v (pl x.beginTime)) := by
  obtain ⟨z, h1, h2, h3, h4, h5⟩ := computeBoundedEventually_first (B := B) hx.not
    (hg.imp (fun h => by rw [computeNot_samples]; exact h.negs) CG.not) ha hab
    (fun σ a b => by rw [v_not]; exact neg_le_neg (hB σ a b))
  refine ⟨computeNot z, ?_, h2, h3, h4.not, ?_⟩
  · have := computeBoundedGlobally_not B (computeNot x) a
    rw [computeNot_computeNot, h1] at this
    exact this
  · rw [v_not, ← top_neg, neg_neg]
    have e : (computeNot x).v = fun σ => -x.v σ := by funext σ; exact v_not x σ
    rw [e] at h5
    exact h5

/-- `timed_tail` at the begin time. -/
theorem timed_tail_first {B : ℚ} {x w : Signal} {a e : ℚ} (hx : WF0 x)
    (gx : SInc x.samples ∨ CG x)
    (ha : 0 < a) (hab : x.beginTime + a < e) (he : e ≤ x.endTime)
    (hB : ∀ σ, pl x.beginTime ≤ σ → σ ≤ pl x.endTime → x.v σ ≤ B)
    (hw : WF0 w) (hwb : w.beginTime = x.beginTime + a) (hwe : w.endTime = e) :
    ∃ z1 z, computeBoundedGlobally B x a = .ok z1 ∧ computeAnd z1 (shift w (-a)) = .ok z ∧
      z.beginTime = x.beginTime ∧ z.endTime = e - a ∧ WF z ∧
        ∃ I, Bot x.v (pl x.beginTime) (pl (x.beginTime + a)) I ∧
          z.v (pl x.beginTime) = min I (w.v (pl (x.beginTime + a))) := by
  obtain ⟨z1, h1, h2, h3, h4, h5⟩ := computeBoundedGlobally_first (B := B) hx gx ha
    (hab.le.trans he) hB
  have hmx : max z1.beginTime (shift w (-a)).beginTime = x.beginTime := by
    simp only [shift, h2, hwb]
    rw [add_neg_cancel_right, max_self]
  have hmn : min z1.endTime (shift w (-a)).endTime = e - a := by
    simp only [shift, h3, hwe, ← sub_eq_add_neg]
    exact min_eq_right (by linarith)
  obtain ⟨z, g1, g2⟩ := computeAnd_spec h4.toWF0 (hw.shift (-a)) (by rw [hmx, hmn]; linarith)
  rw [hmx, hmn] at g2
  refine ⟨z1, z, h1, g1, g2.begin_eq, g2.end_eq, g2.wf, _, h5, ?_⟩
  have hv := g2.val (pl x.beginTime) le_rfl (by rw [pl_le_mi]; linarith)
  rwa [v_shift, pl_shift, neg_neg] at hv

/-- `compute_timed_until` at the begin time of the left operand, the right operand beginning at
the start of the window. -/
theorem computeTimedUntil_first {B : ℚ} {old x y : Signal} {a b : ℚ} (hx : WF0 x) (hy : WF0 y)
    (ix : SInc x.samples) (iy : SInc y.samples)
    (hBx : ∀ σ, pl x.beginTime ≤ σ → σ ≤ pl x.endTime → -B ≤ x.v σ ∧ x.v σ ≤ B)
    (hBy : ∀ σ, pl y.beginTime ≤ σ → σ ≤ pl y.endTime → -B ≤ y.v σ)
    (hL : Spec.RisesClear x y) (ha : 0 ≤ a) (hab : a < b)
    (hb0 : 0 ≤ x.beginTime) (hyx : y.beginTime = x.beginTime + a)
    (hlt : x.beginTime + a < min x.endTime y.endTime)
    (hyb : b ≤ min x.endTime y.endTime → x.beginTime + b ≤ y.endTime) :
    ∃ z, computeTimedUntil B old x y a b = .ok z ∧ z.beginTime = x.beginTime ∧
      z.endTime = min x.endTime y.endTime - a ∧ WF z ∧
        Wnt x.v y.v (pl x.beginTime) (pl (x.beginTime + a))
          (min (pl (x.beginTime + b)) (mi (min x.endTime y.endTime))) (z.v (pl x.beginTime)) := by
  set e := min x.endTime y.endTime with he
  set t := x.beginTime with ht
  have hb : max t y.beginTime = t + a := by rw [hyx]; exact max_eq_right (by linarith)
  have hex : e ≤ x.endTime := min_le_left _ _
  have hey : e ≤ y.endTime := min_le_right _ _
  obtain ⟨u, u1, -, u3, u4, u5, u6, -⟩ := computeUntil_spec hx hy ix iy
    (by rw [← ht, ← he, hb]; exact hlt) (fun σ c d => (hBx σ c d).1) hBy hL
  rw [← ht, hb] at u3 u6
  rw [← he] at u4 u6
  have hU := u6 (pl (t + a)) le_rfl (by simpa using hlt)
  have hfull : ∀ {v I : ℚ}, mi e ≤ pl (t + b) →
      Bot x.v (pl t) (pl (t + a)) I → v = min I (u.v (pl (t + a))) →
      Wnt x.v y.v (pl t) (pl (t + a)) (min (pl (t + b)) (mi e)) v := by
    intro v I hle hI hv
    obtain ⟨⟨σ, h1, h2, h3, h4⟩, h5⟩ := hU
    rw [min_eq_right hle, hv]
    refine ⟨⟨σ, h1, h2, (min_le_right _ _).trans h3, fun ρ p q => ?_⟩, fun σ w p q r s => ?_⟩
    · rcases le_or_gt ρ (pl (t + a)) with h | h
      · exact (min_le_left _ _).trans (hI.2 ρ p h)
      · exact (min_le_right _ _).trans (h4 ρ h.le q)
    · refine le_min ?_ (h5 σ w p q r fun ρ p' q' => s ρ (le_trans (by simpa using ha) p') q')
      obtain ⟨ρ, g1, g2, g3⟩ := hI.1
      rw [← g3]
      exact s ρ g1 (g2.trans p)
  unfold computeTimedUntil
  rw [if_neg (by simp [hx.ne, hy.ne])]
  by_cases hbe : e < b
  · rw [if_pos hbe]
    have hte : mi e ≤ pl (t + b) := by rw [mi_le_pl]; linarith
    by_cases ha0 : a = 0
    · rw [if_pos ha0]
      subst ha0
      refine ⟨u, u1, by rw [u3, add_zero], by rw [u4, sub_zero], u5, ?_⟩
      refine hfull hte (I := x.v (pl t)) ?_ ?_
      · rw [add_zero]; exact bot_point _ _
      · rw [add_zero] at hU ⊢
        obtain ⟨σ, h1, _, _, h4⟩ := hU.1
        exact (min_eq_right (h4 _ le_rfl h1)).symm
    · have ha' : 0 < a := lt_of_le_of_ne ha (Ne.symm ha0)
      rw [if_neg ha0, if_neg (by rw [not_lt]; linarith)]
      obtain ⟨z1, z, g1, g2, g3, g4, g5, I, hI, hv⟩ := timed_tail_first (B := B) hx (Or.inl ix) ha'
        hlt hex (fun σ c d => (hBx σ c d).2) u5.toWF0 u3 u4
      exact ⟨z, by simp only [g1, u1, bind, Except.bind, g2], g3, g4, g5, hfull hte hI hv⟩
  · rw [if_neg hbe]
    have hbe' := not_lt.1 hbe
    obtain ⟨z2, v1, v2, v3, v4, v5⟩ := computeBoundedEventually_first (B := B) hy (Or.inl iy)
      (a := b - a) (by linarith) (by rw [hyx]; linarith [hyb hbe']) hBy
    rw [hyx] at v2 v5
    have hmx : max z2.beginTime u.beginTime = t + a := by rw [v2, u3, max_self]
    have hmn : min z2.endTime u.endTime = e := by rw [v3, u4]; exact min_eq_right hey
    obtain ⟨w, w1, w2⟩ := computeAnd_spec v4.toWF0 u5.toWF0 (by rw [hmx, hmn]; exact hlt)
    rw [hmx, hmn] at w2
    have hW : ∀ {v I : ℚ}, Bot x.v (pl t) (pl (t + a)) I →
        v = min I (w.v (pl (t + a))) →
        Wnt x.v y.v (pl t) (pl (t + a)) (min (pl (t + b)) (mi e)) v := by
      intro v I hI hv
      rw [w2.val (pl (t + a)) le_rfl (by simpa using hlt)] at hv
      have := wnt_of (by simpa using ha) hI v5 hU
      rw [← hv, show t + a + (b - a) = t + b by ring] at this
      exact this
    unfold computeTimedUntilF
    by_cases ha0 : 0 < a
    · obtain ⟨z1, z, g1, g2, g3, g4, g5, I, hI, hv⟩ := timed_tail_first (B := B) hx (Or.inl ix) ha0
        hlt hex (fun σ c d => (hBx σ c d).2) w2.wf.toWF0 w2.begin_eq w2.end_eq
      exact ⟨z, by simp only [v1, u1, w1, if_pos ha0, g1, bind, Except.bind, g2], g3, g4, g5,
        hW hI hv⟩
    · have ha' : a = 0 := le_antisymm (not_lt.1 ha0) ha
      have hmx : max x.beginTime w.beginTime = t := by
        rw [w2.begin_eq, ha', add_zero, ← ht, max_self]
      have hmn : min x.endTime w.endTime = e := by rw [w2.end_eq]; exact min_eq_right hex
      obtain ⟨z, z1, z2'⟩ := computeAnd_spec hx w2.wf.toWF0 (by rw [hmx, hmn]; linarith)
      rw [hmx, hmn] at z2'
      refine ⟨z, by simp only [v1, u1, w1, if_neg ha0, z1, bind, Except.bind], z2'.begin_eq, ?_,
        z2'.wf, ?_⟩
      · rw [z2'.end_eq, ha', sub_zero]
      have hv := z2'.val (pl t) le_rfl (by rw [pl_le_mi]; linarith)
      refine hW (I := x.v (pl t)) ?_ ?_
      · rw [ha', add_zero]; exact bot_point _ _
      · rw [hv, ha', add_zero]

end STLRom
