import Verif.Proofs.Window

/-!
# Bounded `eventually` and `globally`
-/

namespace STLRom
open Signal

/-! ## Admissible samples of a disjunction -/

/-- Dual of `AndOk`. -/
structure OrOk (P : ℚ → ℚ → Prop) (x y : Signal) (b e : ℚ) : Prop where
  p1 : ∀ T, b < T → T < e → P T (max (x.v (pl T)) (y.v (pl T)))
  p2 : ∀ j ∈ y.samples, b < j.time → j.time < e → P j.time (max (x.v (mi j.time)) j.value)
  p3 : ∀ l1 i k l2, x.samples = l1 ++ i :: k :: l2 → i.time = k.time → b < i.time → i.time < e →
    (∀ j ∈ y.samples, j.time = i.time → P i.time (max i.value j.value)) ∧
      P i.time (max i.value (y.v (mi i.time)))

theorem OrOk.not {P : ℚ → ℚ → Prop} {x y : Signal} {b e : ℚ} (h : OrOk P x y b e) :
    AndOk (fun T v => P T (-v)) (computeNot x) (computeNot y) b e := by
  refine ⟨?_, ?_, ?_⟩
  · intro T h1 h2
    rw [v_not, v_not, min_neg_neg, neg_neg]
    exact h.p1 T h1 h2
  · intro j hj h1 h2
    rw [computeNot_samples] at hj
    obtain ⟨q, hq, rfl⟩ := List.mem_map.1 hj
    rw [v_not, Sample.neg_value, Sample.neg_time, min_neg_neg, neg_neg]
    exact h.p2 q hq h1 h2
  · intro l1 i k l2 hx hik h1 h2
    rw [computeNot_samples] at hx
    have hx' : x.samples = negs l1 ++ i.neg :: k.neg :: negs l2 := by
      rw [← negs_negs x.samples, hx]; simp
    obtain ⟨h3, h4⟩ := h.p3 _ _ _ _ hx' (by simpa using hik) h1 h2
    constructor
    · intro j hj hji
      rw [computeNot_samples] at hj
      obtain ⟨q, hq, rfl⟩ := List.mem_map.1 hj
      have := h3 q hq (by simpa using hji)
      rw [Sample.neg_value, Sample.neg_time] at this
      rw [Sample.neg_value, ← neg_neg i.value, min_neg_neg, neg_neg]
      exact this
    · rw [Sample.neg_value, Sample.neg_time] at h4
      rw [v_not, ← neg_neg i.value, min_neg_neg, neg_neg]
      exact h4

theorem computeOr_spec' {P : ℚ → ℚ → Prop} {x y : Signal} (hx : WF0 x) (hy : WF0 y)
    (hlt : max x.beginTime y.beginTime < min x.endTime y.endTime)
    (hP : OrOk P x y (max x.beginTime y.beginTime) (min x.endTime y.endTime)) :
    ∃ z, computeOr x y = .ok z ∧
      IsOn z (max x.beginTime y.beginTime) (min x.endTime y.endTime)
        (fun τ => max (x.v τ) (y.v τ)) ∧
      (∀ p ∈ z.samples, max x.beginTime y.beginTime < p.time →
        p.time < min x.endTime y.endTime → P p.time p.value) ∧
      (∀ p ∈ z.samples, p.time = min x.endTime y.endTime →
        p.value = z.v (mi p.time)) := by
  obtain ⟨z, h1, h2, h3, h4⟩ := computeAnd_spec' hx.not hy.not hlt hP.not
  rw [computeAnd_not] at h1
  refine ⟨computeNot z, except_map_computeNot h1, h2.not.congr fun τ => ?_, ?_, ?_⟩
  · rw [v_not, v_not, min_neg_neg, neg_neg]
  · intro p hp a b
    rw [computeNot_samples] at hp
    obtain ⟨q, hq, rfl⟩ := List.mem_map.1 hp
    exact h3 q hq a b
  · intro p hp a
    rw [computeNot_samples] at hp
    obtain ⟨q, hq, rfl⟩ := List.mem_map.1 hp
    rw [v_not, Sample.neg_value, Sample.neg_time, ← h4 q hq a]

theorem computeOrM_spec_lt' {P : ℚ → ℚ → Prop} {x y : Signal} (hx : WF0 x) (hy : WF0 y)
    (hlt : max x.beginTime y.beginTime < min x.endTime y.endTime)
    (hP : OrOk P x y (max x.beginTime y.beginTime) (min x.endTime y.endTime)) :
    ∃ z, computeOrM x y = .ok z ∧
      IsOn z (max x.beginTime y.beginTime) (min x.endTime y.endTime)
        (fun τ => max (x.v τ) (y.v τ)) ∧
      (∀ p ∈ z.samples, max x.beginTime y.beginTime < p.time →
        p.time < min x.endTime y.endTime → P p.time p.value) ∧
      (∀ p ∈ z.samples, p.time = min x.endTime y.endTime →
        p.value = z.v (mi p.time)) := by
  obtain ⟨z, h1, h2, h3, h4⟩ := computeAndM_spec_lt' hx.not hy.not hlt hP.not
  rw [computeAndM_not] at h1
  refine ⟨computeNot z, except_map_computeNot h1, h2.not.congr fun τ => ?_, ?_, ?_⟩
  · rw [v_not, v_not, min_neg_neg, neg_neg]
  · intro p hp a b
    rw [computeNot_samples] at hp
    obtain ⟨q, hq, rfl⟩ := List.mem_map.1 hp
    exact h3 q hq a b
  · intro p hp a
    rw [computeNot_samples] at hp
    obtain ⟨q, hq, rfl⟩ := List.mem_map.1 hp
    rw [v_not, Sample.neg_value, Sample.neg_time, ← h4 q hq a]

/-- From the pointwise description to continuity and samples on the graph. -/
theorem IsOn.cg {z : Signal} {b e : ℚ} {f : Pt → ℚ} (h : IsOn z b e f) (hbe : b < e)
    (hf : ∀ t, b < t → t < e → f (mi t) = f (pl t))
    (hs : ∀ p ∈ z.samples, b < p.time → p.time < e → p.value = f (pl p.time))
    (he : ∀ p ∈ z.samples, p.time = e → p.value = z.v (mi p.time)) : CG z := by
  constructor
  · intro t h1 h2
    rw [h.begin_eq] at h1
    rw [h.end_eq] at h2
    rcases h2.lt_or_eq with h2 | h2
    · rw [h.val _ (by simpa using h1) (by simpa using h2.le),
        h.val _ (by simpa using h1.le) (by simpa using h2), hf t h1 h2]
    · rw [h2, h.last hbe]
  · intro p hp
    obtain ⟨q, l, hl, hq⟩ := h.wf.exists_cons
    rw [h.begin_eq] at hq
    have hle := h.wf.le_end p hp
    rw [h.end_eq] at hle
    rw [hl] at hp
    rcases List.mem_cons.1 hp with rfl | hp'
    · rw [hq, ← h.begin_eq, h.wf.v_begin hl]
    · have hb : b < p.time := by
        have := h.wf.strict p (by simp [hl, hp'])
        rwa [h.begin_eq] at this
      rcases hle.lt_or_eq with hlt | heq
      · rw [hs p (by simp [hl, hp']) hb hlt, h.val _ (by simpa using hb.le) (by simpa using hlt)]
      · rw [he p (by simp [hl, hp']) heq, heq, h.last hbe]

/-- A conjunction of continuous operands writes samples on its graph. -/
theorem cg_andOk {x y : Signal} (hx : CG x) (hy : CG y) :
    AndOk (fun T v => v = min (x.v (pl T)) (y.v (pl T))) x y
      (max x.beginTime y.beginTime) (min x.endTime y.endTime) := by
  refine ⟨fun _ _ _ => rfl, ?_, ?_⟩
  · intro j hj h1 h2
    rw [hx.cts _ (lt_of_le_of_lt (le_max_left _ _) h1) (h2.le.trans (min_le_left _ _)), hy.vc j hj]
  · intro l1 i k l2 h _ h1 h2
    have hi := hx.vc i (by simp [h])
    refine ⟨fun j hj hji => by rw [hi, hy.vc j hj, hji], ?_⟩
    rw [hi, hy.cts _ (lt_of_le_of_lt (le_max_right _ _) h1) (h2.le.trans (min_le_right _ _))]

theorem cg_orOk {x y : Signal} (hx : CG x) (hy : CG y) :
    OrOk (fun T v => v = max (x.v (pl T)) (y.v (pl T))) x y
      (max x.beginTime y.beginTime) (min x.endTime y.endTime) := by
  refine ⟨fun _ _ _ => rfl, ?_, ?_⟩
  · intro j hj h1 h2
    rw [hx.cts _ (lt_of_le_of_lt (le_max_left _ _) h1) (h2.le.trans (min_le_left _ _)), hy.vc j hj]
  · intro l1 i k l2 h _ h1 h2
    have hi := hx.vc i (by simp [h])
    refine ⟨fun j hj hji => by rw [hi, hy.vc j hj, hji], ?_⟩
    rw [hi, hy.cts _ (lt_of_le_of_lt (le_max_right _ _) h1) (h2.le.trans (min_le_right _ _))]

theorem cg_pair {x y : Signal} {g : ℚ → ℚ → ℚ} (hx : CG x) (hy : CG y) (t : ℚ)
    (h1 : max x.beginTime y.beginTime < t) (h2 : t ≤ min x.endTime y.endTime) :
    g (x.v (mi t)) (y.v (mi t)) = g (x.v (pl t)) (y.v (pl t)) := by
  rw [hx.cts _ (lt_of_le_of_lt (le_max_left _ _) h1) (h2.trans (min_le_left _ _)),
    hy.cts _ (lt_of_le_of_lt (le_max_right _ _) h1) (h2.trans (min_le_right _ _))]

theorem computeAndM_cg {x y : Signal} (hx : WF0 x) (hy : WF0 y) (cx : CG x) (cy : CG y)
    (hlt : max x.beginTime y.beginTime < min x.endTime y.endTime) :
    ∃ z, computeAndM x y = .ok z ∧
      IsOn z (max x.beginTime y.beginTime) (min x.endTime y.endTime)
        (fun τ => min (x.v τ) (y.v τ)) ∧ CG z := by
  obtain ⟨z, h1, h2, h3, h4⟩ := computeAndM_spec_lt' hx hy hlt (cg_andOk cx cy)
  exact ⟨z, h1, h2, h2.cg hlt (fun t a b => cg_pair (g := min) cx cy t a b.le) h3 h4⟩

theorem computeOrM_cg {x y : Signal} (hx : WF0 x) (hy : WF0 y) (cx : CG x) (cy : CG y)
    (hlt : max x.beginTime y.beginTime < min x.endTime y.endTime) :
    ∃ z, computeOrM x y = .ok z ∧
      IsOn z (max x.beginTime y.beginTime) (min x.endTime y.endTime)
        (fun τ => max (x.v τ) (y.v τ)) ∧ CG z := by
  obtain ⟨z, h1, h2, h3, h4⟩ := computeOrM_spec_lt' hx hy hlt (cg_orOk cx cy)
  exact ⟨z, h1, h2, h2.cg hlt (fun t a b => cg_pair (g := max) cx cy t a b.le) h3 h4⟩

theorem WF.cg_point {x : Signal} (h : WF x) (he : x.beginTime = x.endTime) : CG x := by
  obtain ⟨p, l, hl, hp⟩ := h.exists_cons
  refine ⟨fun t a b => absurd (a.trans_le b) (by rw [he]; exact lt_irrefl _), fun q hq => ?_⟩
  rw [hl] at hq
  rcases List.mem_cons.1 hq with rfl | hq
  · rw [hp, h.v_begin hl]
  · have h1 := h.strict q (by simpa [hl] using hq)
    have h2 := h.le_end q (by simp [hl, hq])
    exact absurd (h1.trans_le h2) (by rw [he]; exact lt_irrefl _)

theorem WF0.head_cg {x : Signal} (h : WF0 x) (c : CG x) :
    ∀ p, x.samples.head? = some p → x.v (pl x.beginTime) = p.value := by
  intro p hp
  rw [← h.head p hp]
  exact (c.vc p (List.mem_of_head? hp)).symm

/-- Conjunction of two continuous signals on the same domain, maybe a single point. -/
theorem computeAndM_same {x y : Signal} {S E : ℚ} (hx : WF0 x) (hy : WF0 y) (cx : CG x) (cy : CG y)
    (bx : x.beginTime = S) (ex : x.endTime = E) (by' : y.beginTime = S) (ey : y.endTime = E) :
    ∃ z, computeAndM x y = .ok z ∧ z.beginTime = S ∧ z.endTime = E ∧ WF z ∧ CG z ∧
      ∀ t, S ≤ t → t ≤ E → z.v (pl t) = min (x.v (pl t)) (y.v (pl t)) := by
  have hSE : S ≤ E := by rw [← bx, ← ex]; exact hx.begin_le_end
  rcases hSE.lt_or_eq with hlt | heq
  · obtain ⟨z, h1, h2, h3⟩ := computeAndM_cg hx hy cx cy (by rw [bx, ex, by', ey]; simpa using hlt)
    rw [bx, ex, by', ey, max_self, min_self] at h2
    refine ⟨z, h1, h2.begin_eq, h2.end_eq, h2.wf, h3, fun t a b => ?_⟩
    rcases b.lt_or_eq with b | b
    · exact h2.val (pl t) (by simpa using a) (by simpa using b)
    · subst b
      rw [h2.last hlt, h2.val _ (by simpa using hlt) le_rfl]
      show min (x.v (mi t)) (y.v (mi t)) = _
      rw [cx.cts t (by rw [bx]; exact hlt) ex.ge, cy.cts t (by rw [by']; exact hlt) ey.ge]
  · obtain ⟨z, h1, h2⟩ := computeAndM_spec_eq0 hx hy (hx.head_cg cx) (hy.head_cg cy)
      (bx.trans by'.symm) (by rw [ex, ey, bx, min_self, heq])
    rw [bx] at h2
    refine ⟨z, h1, h2.begin_eq, h2.end_eq.trans heq, h2.wf,
      h2.wf.cg_point (h2.begin_eq.trans h2.end_eq.symm), fun t a b => ?_⟩
    have : t = S := le_antisymm (heq ▸ b) a
    subst this
    exact h2.point rfl

theorem computeOrM_same {x y : Signal} {S E : ℚ} (hx : WF0 x) (hy : WF0 y) (cx : CG x) (cy : CG y)
    (bx : x.beginTime = S) (ex : x.endTime = E) (by' : y.beginTime = S) (ey : y.endTime = E) :
    ∃ z, computeOrM x y = .ok z ∧ z.beginTime = S ∧ z.endTime = E ∧ WF z ∧ CG z ∧
      ∀ t, S ≤ t → t ≤ E → z.v (pl t) = max (x.v (pl t)) (y.v (pl t)) := by
  obtain ⟨z, h1, h2, h3, h4, h5, h6⟩ := computeAndM_same hx.not hy.not cx.not cy.not bx ex by' ey
  rw [computeAndM_not] at h1
  refine ⟨computeNot z, except_map_computeNot h1, h2, h3, h4.not, h5.not, fun t a b => ?_⟩
  rw [v_not, h6 t a b, v_not, v_not, min_neg_neg, neg_neg]

/-- `simplify` keeps samples on the graph. -/
theorem simplify_cg {x : Signal} (h : WF x) :
    ∃ z, simplify x = .ok z ∧ z.beginTime = x.beginTime ∧ z.endTime = x.endTime ∧ WF z ∧
      (∀ τ, τ ≤ pl x.endTime → z.v τ = x.v τ) ∧ (CG x → CG z) := by
  obtain ⟨z, h1, h2, h3, h4, h5, _, m, h6, h7⟩ := simplify_spec' h
  have hv : ∀ τ, τ ≤ pl x.endTime → z.v τ = x.v τ := fun τ hτ => by
    unfold Signal.v; rw [h5 τ hτ]
  refine ⟨z, h1, h2, h3, h4, hv, fun hc => ⟨?_, ?_⟩⟩
  · intro t a b
    rw [h2] at a
    rw [h3] at b
    rw [hv _ (by simpa [le_pl_iff] using b), hv _ (by simpa using b), hc.cts t a b]
  · intro p hp
    have hpe := h4.le_end p hp
    rw [h3] at hpe
    rw [hv _ (by simpa using hpe)]
    rcases h7 with h7 | ⟨b, hb, hbe, h7⟩
    · exact hc.vc p (h6.subset (h7 ▸ hp))
    · rw [h7] at hp
      rcases List.mem_append.1 hp with hp | hp
      · exact hc.vc p (h6.subset hp)
      · simp only [List.mem_singleton] at hp
        subst hp
        rw [← hv _ le_rfl]
        symm
        apply Signal.v_of_val
        rw [h7, val_snoc (by simp)]
        simp [Sample.valueAt]

theorem shift_samples_mem {x : Signal} {a : ℚ} {p : Sample} (h : p ∈ (x.shift a).samples) :
    ∃ q ∈ x.samples, p = ⟨q.time + a, q.value, q.derivative⟩ := by
  obtain ⟨q, hq, rfl⟩ := List.mem_map.1 h
  exact ⟨q, hq, rfl⟩

/-- For a continuous operand the window maximum has no jump. -/
theorem window_cts {x : Signal} {a t v w : ℚ} (hc : CG x) (ha : 0 < a) (h1 : x.beginTime < t)
    (h2 : t < x.endTime)
    (hv : Top x.v (mi t) (min ((mi t).shift a) (pl x.endTime)) v)
    (hw : Top x.v (pl t) (min ((pl t).shift a) (pl x.endTime)) w) : v = w := by
  refine hv.unique ⟨?_, ?_⟩
  · obtain ⟨σ, b1, b2, b3⟩ := hw.1
    obtain ⟨b4, b5⟩ := le_min_iff.1 b2
    rcases le_or_gt σ (mi (t + a)) with h | h
    · exact ⟨σ, le_trans (by simp) b1, le_min (by simpa using h) b5, b3⟩
    · rw [mi_lt_iff] at h
      have : σ = pl (t + a) := le_antisymm (by simpa using b4) h
      subst this
      refine ⟨mi (t + a), by simpa using ha.le, le_min (by simp) (le_trans (by simp) b5), ?_⟩
      rw [hc.cts (t + a) (by linarith) (by simpa using b5), b3]
  · intro σ b1 b2
    obtain ⟨b4, b5⟩ := le_min_iff.1 b2
    have hw' : ∀ ρ, pl t ≤ ρ → ρ ≤ (mi t).shift a → ρ ≤ pl x.endTime → x.v ρ ≤ w := by
      intro ρ c1 c2 c3
      refine hw.2 ρ c1 (le_min (c2.trans (by simp)) c3)
    rcases eq_or_lt_of_le b1 with rfl | b1
    · rw [hc.cts t h1 h2.le]
      exact hw' _ le_rfl (by simpa using ha) (by simpa using h2.le)
    · exact hw' σ (by rwa [mi_lt_iff] at b1) b4 b5

theorem PeakVal.unique {B a v w : ℚ} {y : List Point} {τ : Pt} (h : PeakVal B a y τ v)
    (h' : PeakVal B a y τ w) : v = w := by
  rcases h with ⟨p, hp, hl, rfl, hu⟩ | ⟨rfl, hn⟩ <;> rcases h' with ⟨q, hq, hl', rfl, hu'⟩ | ⟨rfl, hn'⟩
  · exact le_antisymm (hu' p hp hl) (hu q hq hl')
  · exact absurd hl (hn' p hp)
  · exact absurd hl' (hn q hq)
  · rfl

/-- The bounded `eventually` over the window `[0,a]`. -/
theorem computeBoundedEventually_spec {x : Signal} {B a : ℚ} (hx : WF0 x)
    (hg : SInc x.samples ∨ CG x) (ha : 0 < a) (hab : x.beginTime + a < x.endTime)
    (hk : KeepsSlope x (x.beginTime + a))
    (hB : ∀ σ, pl x.beginTime ≤ σ → σ ≤ pl x.endTime → -B ≤ x.v σ) :
    ∃ z, computeBoundedEventually B x a = .ok z ∧ z.beginTime = x.beginTime ∧
      z.endTime = x.endTime ∧ WF z ∧
      (∀ τ, pl x.beginTime ≤ τ → τ ≤ mi x.endTime →
        Top x.v τ (min (τ.shift a) (pl x.endTime)) (z.v τ)) ∧
      z.v (pl x.endTime) = z.v (mi x.endTime) ∧ (CG x → CG z) := by
  obtain ⟨f, l, hl, hfb⟩ := hx.exists_cons
  have hbe : x.beginTime < x.endTime := by linarith
  have hGC : GC x := hg.elim SInc.gc CG.gc
  have hBe := hB (pl x.endTime) (by simpa using hbe.le) le_rfl
  have hpt := pk_times (B := B) (e := x.endTime) f l (hl ▸ hx.sorted) (hl ▸ hx.le_end)
  have hpf := pk_facts (B := B) (e := x.endTime) f l
  rw [← hl] at hpt hpf
  have htidy : Tidy x.endTime (⟨f.time, f.value⟩ :: pk B x.endTime x.samples) := by
    rcases hg with hg | hg
    · refine List.pairwise_cons.2 ⟨fun p hp heq => ?_, ?_⟩
      · have heq : f.time = p.time := heq
        have hs := hg
        rw [hl] at hs
        rcases hpt.2 p hp with h | ⟨q, hq, h⟩
        · rw [h, hfb] at heq; exact absurd heq hbe.ne
        · rw [h] at heq; exact absurd heq ((List.pairwise_cons.1 hs).1 q hq).ne
      rw [hl]
      refine pk_tidy_sinc f l (hl ▸ hg) (hl ▸ hx.le_end) ?_
      intro p hp hpe
      rw [← hl] at hp
      have := Signal.v_of_val (hg.val_self p hp)
      rw [← this]
      exact hB _ (by rw [hpe]; simpa using hbe.le) (by rw [hpe])
    · refine List.pairwise_cons.2 ⟨fun p hp heq => ?_, pk_tidy_cg hx hg hBe⟩
      have heq : f.time = p.time := heq
      have h1 := pk_cg hx hg hBe [] f l hl p (hl ▸ hp)
      have h2 := hg.vc f (by simp [hl])
      rw [← heq, ← h2] at h1
      exact ⟨h1.le, fun _ => h1⟩
  have hyb : ∀ p ∈ pk B x.endTime x.samples, x.beginTime ≤ p.time ∧ p.time ≤ x.endTime := by
    intro p hp
    rcases hpt.2 p hp with h | ⟨q, hq, h⟩
    · rw [h]; exact ⟨hbe.le, le_rfl⟩
    · rw [h]
      exact ⟨hx.begin_le q (by simp [hl, hq]), hx.le_end q (by simp [hl, hq])⟩
  obtain ⟨pe, hpe, hpee, _⟩ := hpf.1
  obtain ⟨z1, p1, p2, p3, p4, p5, p6, p7⟩ := plateauMax_spec hl hfb ha hab.le hpt.1 htidy hyb
    ⟨pe, hpe, hpee⟩
  obtain ⟨z2, r1, r2, r3, r4, r5, r6, r7, r8⟩ := resize_beyond (s := x.beginTime + a)
    (t := x.endTime + a) (-B) hx (by linarith) hab.le (by linarith) hk
  have hsh := r4.shift (-a)
  have hsb : (z2.shift (-a)).beginTime = x.beginTime := by
    show z2.beginTime + -a = _; rw [r2]; ring
  have hse : (z2.shift (-a)).endTime = x.endTime := by
    show z2.endTime + -a = _; rw [r3]; ring
  have hfar : ∀ τ, pl x.beginTime ≤ τ → (z2.shift (-a)).v τ = farVal x B a τ := by
    intro τ h1
    rw [v_shift, neg_neg]
    unfold farVal
    split_ifs with h
    · unfold Signal.v
      rw [r5 _ (by rw [← pl_shift, Pt.shift_le_shift]; exact h1) h]
    · apply Signal.v_of_val
      rw [r6]
      rw [not_le, mi_lt_iff] at h; exact h
  -- values written into z3
  set g : Pt → ℚ := fun τ => max (farVal x B a τ) (z1.v τ) with hgdef
  have hmax3 : max (z2.shift (-a)).beginTime z1.beginTime = x.beginTime := by rw [hsb, p2, max_self]
  have hmin3 : min (z2.shift (-a)).endTime z1.endTime = x.endTime := by rw [hse, p3, min_self]
  have hor3 : OrOk (fun T v => CG x → v = g (mi T) ∨ v = g (pl T)) (z2.shift (-a)) z1
      x.beginTime x.endTime := by
    have key : CG x → ∀ T, x.beginTime < T → T < x.endTime →
        max (farVal x B a (mi T)) (z1.v (pl T)) = g (pl T) := by
      intro hc T h1 h2
      simp only [hgdef]
      rcases lt_trichotomy (T + a) x.endTime with h | h | h
      · have e1 : farVal x B a (mi T) = farVal x B a (pl T) := by
          unfold farVal
          rw [if_pos (by simpa using h.le), if_pos (by simpa using h), mi_shift, pl_shift]
          exact hc.cts _ (by linarith) h.le
        rw [e1]
      · have e1 : farVal x B a (mi T) = x.v (pl x.endTime) := by
          unfold farVal
          rw [if_pos (by simpa using h.le), mi_shift, h]
          exact hc.cts _ hbe le_rfl
        have e2 : farVal x B a (pl T) = -B := by
          unfold farVal
          rw [if_neg (by simp [h])]
        have hpv : pe.value = x.v (pl x.endTime) := by
          have := pk_cg hx hc hBe [] f l hl pe (hl ▸ hpe)
          rw [this, hpee]
        have e3 : x.v (pl x.endTime) ≤ z1.v (pl T) := by
          have hlive : Live a (pl T) pe := by
            refine ⟨?_, ?_⟩
            · rw [hpee]; simpa using h2
            · rw [hpee]; simp [h]
          rcases p5 (pl T) (by simpa using h1.le) (by simpa using h2) with ⟨_, _, _, _, hu⟩ | ⟨_, hn⟩
          · rw [← hpv]; exact hu pe hpe hlive
          · exact absurd hlive (hn pe hpe)
        rw [e1, e2, max_eq_right e3, max_eq_right (hBe.trans e3)]
      · have e1 : farVal x B a (mi T) = farVal x B a (pl T) := by
          unfold farVal
          rw [if_neg (by simp [h]), if_neg (by simp [h.le])]
        rw [e1]
    have hz1 : ∀ j ∈ z1.samples, x.beginTime < j.time → j.time < x.endTime →
        j.value = z1.v (pl j.time) := by
      intro j hj h1 h2
      exact (p6 j hj h1 h2).unique (p5 _ (by simpa using h1.le) (by simpa using h2))
    refine ⟨?_, ?_, ?_⟩
    · intro T h1 h2 hc
      right
      rw [hfar _ (by simpa using h1.le)]
    · intro j hj h1 h2 hc
      right
      rw [hfar _ (by simpa using h1), hz1 j hj h1 h2]
      exact key hc _ h1 h2
    · intro l1 i k l2 hsp hik h1 h2
      have hi : CG x → i.value = farVal x B a (mi i.time) := by
        intro hc
        have hsp' : (z2.samples.map fun p : Sample => (⟨p.time + -a, p.value, p.derivative⟩ : Sample))
            = l1 ++ i :: k :: l2 := hsp
        have hdl : i ∈ (z2.samples.dropLast.map fun p : Sample =>
            (⟨p.time + -a, p.value, p.derivative⟩ : Sample)) := by
          rw [List.map_dropLast, hsp', List.dropLast_append_of_ne_nil (by simp)]
          simp
        obtain ⟨q, hq, rfl⟩ := List.mem_map.1 hdl
        have h1' : x.beginTime < q.time + -a := h1
        have h2' : q.time + -a < x.endTime := h2
        rcases r8 q hq with h | h
        · show q.value = _
          have hqe := hx.le_end q h
          unfold farVal
          rw [if_pos (by simpa using hqe), mi_shift, neg_add_cancel_right,
            hc.cts _ (by linarith) hqe, hc.vc q h]
        · rw [h] at h1'; linarith
      constructor
      · intro j hj hji hc
        right
        rw [hi hc, hz1 j hj (hji ▸ h1) (hji ▸ h2), hji]
        exact key hc _ h1 h2
      · intro hc
        left
        rw [hi hc]
  obtain ⟨z3, o1, o2, o3, o4⟩ := computeOr_spec' hsh p4 (by rw [hmax3, hmin3]; exact hbe)
    (by rw [hmax3, hmin3]; exact hor3)
  rw [hmin3] at o4
  rw [hmax3, hmin3] at o2 o3
  have hz3 : ∀ τ, pl x.beginTime ≤ τ → τ ≤ mi x.endTime → z3.v τ = g τ := by
    intro τ h1 h2
    rw [o2.val τ h1 h2, hfar τ h1]
  have hwin : ∀ τ, pl x.beginTime ≤ τ → τ ≤ mi x.endTime →
      Top x.v τ (min (τ.shift a) (pl x.endTime)) (max (x.v τ) (z3.v τ)) := by
    intro τ h1 h2
    rw [hz3 τ h1 h2]
    exact window_top hx hGC ha hB h1 h2 (p5 τ h1 h2)
  have hmax4 : max x.beginTime z3.beginTime = x.beginTime := by rw [o2.begin_eq, max_self]
  have hmin4 : min x.endTime z3.endTime = x.endTime := by rw [o2.end_eq, min_self]
  have hcts : CG x → ∀ T, x.beginTime < T → T < x.endTime →
      max (x.v (mi T)) (z3.v (mi T)) = max (x.v (pl T)) (z3.v (pl T)) := by
    intro hc T h1 h2
    exact window_cts hc ha h1 h2 (hwin _ (by simpa using h1) (by simpa using h2.le))
      (hwin _ (by simpa using h1.le) (by simpa using h2))
  have hor4 : OrOk (fun T v => CG x → v = max (x.v (pl T)) (z3.v (pl T))) x z3
      x.beginTime x.endTime := by
    refine ⟨fun _ _ _ _ => rfl, ?_, ?_⟩
    · intro j hj h1 h2 hc
      rcases o3 j hj h1 h2 hc with h | h
      · rw [h, ← hz3 _ (by simpa using h1) (by simpa using h2.le), hcts hc _ h1 h2]
      · rw [h, ← hz3 _ (by simpa using h1.le) (by simpa using h2), hc.cts _ h1 h2.le]
    · intro l1 i k l2 hsp _ h1 h2
      constructor
      · intro j hj hji hc
        have hi := hc.vc i (by simp [hsp])
        rcases o3 j hj (hji ▸ h1) (hji ▸ h2) hc with h | h
        · rw [h, hji, ← hz3 _ (by simpa using h1) (by simpa using h2.le), ← hcts hc _ h1 h2, hi,
            hc.cts _ h1 h2.le]
        · rw [h, hji, ← hz3 _ (by simpa using h1.le) (by simpa using h2), hi]
      · intro hc
        have hi := hc.vc i (by simp [hsp])
        rw [hi, ← hc.cts _ h1 h2.le, hcts hc _ h1 h2, hc.cts _ h1 h2.le]
  obtain ⟨z4, q1, q2, q3, q4⟩ := computeOr_spec' hx o2.wf.toWF0
    (by rw [hmax4, hmin4]; exact hbe) (by rw [hmax4, hmin4]; exact hor4)
  rw [hmin4] at q4
  rw [hmax4, hmin4] at q2 q3
  obtain ⟨z, s1, s2, s3, s4, s5, s6⟩ := simplify_cg q2.wf
  rw [q2.end_eq] at s5
  refine ⟨z, ?_, by rw [s2, q2.begin_eq], by rw [s3, q2.end_eq], s4, ?_, ?_, ?_⟩
  · simp only [computeBoundedEventually, p1, r1, o1, q1, s1, bind, Except.bind]
  · intro τ h1 h2
    rw [s5 τ (h2.trans (by simp)), q2.val τ h1 h2]
    exact hwin τ h1 h2
  · rw [s5 _ le_rfl, s5 _ (by simp), q2.last hbe]
  · intro hc
    exact s6 (q2.cg hbe (fun t a b => hcts hc t a b) (fun p hp a b => q3 p hp a b hc) q4)

end STLRom
