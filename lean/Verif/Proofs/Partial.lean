import Verif.Proofs.TotalEval
import Verif.Spec.Interval

/-!
# Signal operators on operands that end at different times
-/

namespace STLRom
open Signal Spec

theorem computeAndM_on {x y : Signal} {S E1 E2 : ℚ} (hx : WF0 x) (hy : WF0 y) (cx : CG x) (cy : CG y)
    (bx : x.beginTime = S) (ex : x.endTime = E1) (by' : y.beginTime = S) (ey : y.endTime = E2) :
    ∃ z, computeAndM x y = .ok z ∧ z.beginTime = S ∧ z.endTime = min E1 E2 ∧ WF z ∧ CG z ∧
      ∀ t, S ≤ t → t ≤ min E1 E2 → z.v (pl t) = min (x.v (pl t)) (y.v (pl t)) := by
  have h1 : S ≤ E1 := by rw [← bx, ← ex]; exact hx.begin_le_end
  have h2 : S ≤ E2 := by rw [← by', ← ey]; exact hy.begin_le_end
  have hSE : S ≤ min E1 E2 := le_min h1 h2
  rcases hSE.lt_or_eq with hlt | heq
  · obtain ⟨z, h1, h2, h3⟩ := computeAndM_cg hx hy cx cy (by rw [bx, ex, by', ey, max_self]; exact hlt)
    rw [bx, ex, by', ey, max_self] at h2
    refine ⟨z, h1, h2.begin_eq, h2.end_eq, h2.wf, h3, fun t a b => ?_⟩
    rcases b.lt_or_eq with b | b
    · exact h2.val (pl t) (by simpa using a) (by rw [pl_le_mi]; exact b)
    · subst b
      rw [h2.last hlt, h2.val _ (by simpa using hlt) le_rfl]
      show min (x.v (mi _)) (y.v (mi _)) = _
      rw [cx.cts _ (by rw [bx]; exact hlt) (by rw [ex]; exact min_le_left _ _),
        cy.cts _ (by rw [by']; exact hlt) (by rw [ey]; exact min_le_right _ _)]
  · obtain ⟨z, h1, h2⟩ := computeAndM_spec_eq0 hx hy (hx.head_cg cx) (hy.head_cg cy)
      (bx.trans by'.symm) (by rw [ex, ey, bx, heq])
    rw [bx] at h2
    refine ⟨z, h1, h2.begin_eq, h2.end_eq.trans heq, h2.wf,
      h2.wf.cg_point (h2.begin_eq.trans h2.end_eq.symm), fun t a b => ?_⟩
    have : t = S := le_antisymm (heq ▸ b) a
    subst this
    exact h2.point rfl

theorem Node.and2 {B : ℚ} {x y : Signal} {S E1 E2 : ℚ} (hx : Node B x S E1) (hy : Node B y S E2) :
    ∃ z, computeAndM x y = .ok z ∧ Node B z S (min E1 E2) ∧
      ∀ t, S ≤ t → t ≤ min E1 E2 → z.v (pl t) = min (x.v (pl t)) (y.v (pl t)) := by
  obtain ⟨z, h1, h2, h3, h4, h5, h6⟩ := computeAndM_on hx.wf hy.wf hx.cg hy.cg hx.b hx.e hy.b hy.e
  refine ⟨z, h1, ⟨h2, h3, h4.toWF0, h5, fun t a b => ?_⟩, h6⟩
  rw [h6 t a b]
  have b1 := b.trans (min_le_left _ _)
  have b2 := b.trans (min_le_right _ _)
  exact ⟨le_min (hx.bd t a b1).1 (hy.bd t a b2).1, (min_le_left _ _).trans (hx.bd t a b1).2⟩

theorem Node.or2 {B : ℚ} {x y : Signal} {S E1 E2 : ℚ} (hx : Node B x S E1) (hy : Node B y S E2) :
    ∃ z, computeOrM x y = .ok z ∧ Node B z S (min E1 E2) ∧
      ∀ t, S ≤ t → t ≤ min E1 E2 → z.v (pl t) = max (x.v (pl t)) (y.v (pl t)) := by
  obtain ⟨z, h1, h2, h3⟩ := hx.not.and2 hy.not
  rw [computeAndM_not] at h1
  refine ⟨computeNot z, except_map_computeNot h1, h2.not, fun t a b => ?_⟩
  rw [v_not, h3 t a b, v_not, v_not, min_neg_neg, neg_neg]

theorem andBound2 {x y : Signal} {B S E1 E2 : ℚ} (v : ℚ) (hx : Node B x S E1) (hy : Node B y S E2) :
    ∃ z w p, computeAndM x y = .ok z ∧ z.endTime = min E1 E2 ∧ Signal.resize z S (min E1 E2) v = .ok w ∧
      Node B w S (min E1 E2) ∧
      (∀ t, S ≤ t → t ≤ min E1 E2 → w.v (pl t) = min (x.v (pl t)) (y.v (pl t))) ∧ w.front = .ok p ∧
      p.value = w.v (pl S) ∧ ∃ p ∈ w.samples, min E1 E2 ≤ p.time := by
  obtain ⟨z, h1, h2, h3⟩ := hx.and2 hy
  obtain ⟨w, k1, k2, k3⟩ := h2.resize_same v
  obtain ⟨p, hp, hp'⟩ := k2.front
  have hm := computeAndM_mark h1
  rw [hx.e, hy.e] at hm
  exact ⟨z, w, p, h1, h2.e, k1, k2, fun t a b => (k3 t a b).trans (h3 t a b), hp, hp',
    h2.resize_end k1 k2 hm⟩

theorem orBound2 {x y : Signal} {B S E1 E2 : ℚ} (v : ℚ) (hx : Node B x S E1) (hy : Node B y S E2) :
    ∃ z w p, computeOrM x y = .ok z ∧ z.endTime = min E1 E2 ∧ Signal.resize z S (min E1 E2) v = .ok w ∧
      Node B w S (min E1 E2) ∧
      (∀ t, S ≤ t → t ≤ min E1 E2 → w.v (pl t) = max (x.v (pl t)) (y.v (pl t))) ∧ w.front = .ok p ∧
      p.value = w.v (pl S) ∧ ∃ p ∈ w.samples, min E1 E2 ≤ p.time := by
  obtain ⟨z, h1, h2, h3⟩ := hx.or2 hy
  obtain ⟨w, k1, k2, k3⟩ := h2.resize_same v
  obtain ⟨p, hp, hp'⟩ := k2.front
  have hm := computeOrM_mark h1
  rw [hx.e, hy.e] at hm
  exact ⟨z, w, p, h1, h2.e, k1, k2, fun t a b => (k3 t a b).trans (h3 t a b), hp, hp',
    h2.resize_end k1 k2 hm⟩

theorem Is.mono {z : Signal} {S E E' : ℚ} {f : ℚ → EReal} (h : Is z S E f) (he : E' ≤ E) :
    Is z S E' f := fun t a b => h t a (b.trans he)

/-- `ev` over an operand `z` on `[u, K]` that is constant before `S + a`. -/
theorem Node.ev_pre {old z : Signal} {B a b S u K : ℚ} {f : ℚ → EReal} (hz : Node B z u K)
    (hu : u ≤ S + a) (hK : S + a ≤ K) (hcon : ∀ t, u ≤ t → t ≤ S + a → z.v (pl t) = z.v (pl (S + a)))
    (hf : Is z (S + a) K f) (ha : 0 ≤ a) (hab : a ≤ b)
    (hk : u + (b - a) < K → a < b → KeepsSlope z (u + (b - a))) :
    ∃ w, computeTimedEventually B old z a b = .ok w ∧ w.endTime = K - a ∧
      ∀ g, S ≤ g → g ≤ K - a → ∃ w', Signal.resize w S g 0 = .ok w' ∧ Node B w' S g ∧
        Is w' S g (fun t => ⨆ r ∈ Set.Icc (t + a) (min (t + b) K), f r) := by
  obtain ⟨w, h1, h2, h3⟩ := hz.tev (old := old) ha hab hk
  refine ⟨w, h1, h2.e, fun g hg1 hg2 => ?_⟩
  obtain ⟨w', r1, r2, r3, _⟩ := h2.resize 0 (u := S) (w := g) (by linarith) hg1 hg2
  refine ⟨w', r1, r2, ?_⟩
  have hkw : KeepsSlope w S := by
    rcases hu.lt_or_eq with hs | hs
    · by_cases hq : ∃ p ∈ w.samples, S ≤ p.time
      · exact Or.inr (Or.inl hq)
      obtain ⟨q, hq, hqS⟩ := getLast_lt_of h2.wf.wfb hq
      refine Or.inr (Or.inr fun q' hq' => ?_)
      rw [hq] at hq'
      obtain rfl := Option.some.inj hq'
      have hqb : u - a ≤ q.time := by
        rw [← h2.b]; exact h2.wf.begin_le q (List.mem_of_getLast? hq)
      have hval : ∀ t, q.time ≤ t → w.v (pl t) = q.value + q.derivative * (t - q.time) := by
        intro t c
        apply Signal.v_of_val
        rw [val, val_append_last hq (by simpa using c)]
        rfl
      have hcon' : ∀ σ, pl u ≤ σ → σ ≤ pl (S + a) → z.v σ = z.v (pl (S + a)) := by
        intro σ c d
        exact hz.vconst le_rfl hK hcon c d
      have T1 := h3 q.time (by linarith) (by linarith)
      have T2 := h3 S (by linarith) (by linarith)
      have hup : w.v (pl q.time) ≤ w.v (pl S) := by
        obtain ⟨σ, k1, k2, k3⟩ := T1.1
        rw [← k3]
        rcases le_total σ (pl (S + a)) with k | k
        · rw [hcon' σ (le_trans (by rw [pl_le_pl]; linarith) k1) k]
          refine T2.2 _ le_rfl ?_
          rw [pl_le_pl]
          exact le_min (by linarith) (by linarith)
        · refine T2.2 σ k (k2.trans ?_)
          rw [pl_le_pl]
          exact min_le_min (by linarith) le_rfl
      have hd0 : 0 ≤ q.derivative := by
        rw [hval _ le_rfl, hval S hqS.le, sub_self, mul_zero, add_zero] at hup
        by_contra hd
        push Not at hd
        nlinarith
      rcases hab.lt_or_eq with hab' | hab'
      · obtain ⟨t3, c1, c2, c3⟩ : ∃ t3, q.time ≤ t3 ∧ K - b ≤ t3 ∧ t3 < K - a :=
          ⟨max q.time (K - b), le_max_left _ _, le_max_right _ _, max_lt (by linarith) (by linarith)⟩
        have T3 := h3 t3 (by linarith) c3.le
        have T4 := h3 (K - a) (by linarith) le_rfl
        have hdn : w.v (pl (K - a)) ≤ w.v (pl t3) := by
          obtain ⟨σ, k1, k2, k3⟩ := T4.1
          rw [← k3]
          refine T3.2 σ (le_trans (by rw [pl_le_pl]; linarith) k1) (k2.trans ?_)
          rw [pl_le_pl]
          exact le_min ((min_le_right _ _).trans (by linarith)) (min_le_right _ _)
        rw [hval _ (by linarith), hval _ c1] at hdn
        by_contra hd
        have : 0 < q.derivative := lt_of_le_of_ne hd0 (Ne.symm hd)
        nlinarith
      · subst hab'
        rw [min_eq_left (by linarith)] at T1 T2
        have hs1 : ∀ {t v : ℚ}, Top z.v (pl t) (pl t) v → v = z.v (pl t) := by
          intro t v h
          obtain ⟨σ, k1, k2, k3⟩ := h.1
          rw [← k3, le_antisymm k2 k1]
        have e1 := hs1 T1
        have e2 := hs1 T2
        rw [hcon' (pl (q.time + a)) (by rw [pl_le_pl]; linarith) (by rw [pl_le_pl]; linarith), ← e2,
          hval _ le_rfl, hval _ hqS.le, sub_self, mul_zero, add_zero] at e1
        have : q.derivative * (S - q.time) = 0 := by linarith
        rcases mul_eq_zero.1 this with h | h
        · exact h
        · linarith
    · exact Or.inl (by rw [h2.b]; linarith)
  intro t c d
  rw [r3 hkw t c d]
  have hT := h3 t (by linarith) (by linarith)
  refine hT.sup hz (fun r c' d' => ?_) (by linarith) (min_le_right _ _)
  exact hf r (by linarith) (d'.trans (min_le_right _ _))

theorem Node.alw_pre {old z : Signal} {B a b S K : ℚ} {f : ℚ → EReal} (hz : Node B z (S + a) K)
    (hf : Is z (S + a) K f) (ha : 0 ≤ a) (hab : a ≤ b)
    (hk : S + b < K → a < b → KeepsSlope z (S + b)) :
    ∃ w, computeTimedGlobally B old z a b = .ok w ∧ w.endTime = K - a ∧
      ∀ g, S ≤ g → g ≤ K - a → ∃ w', Signal.resize w S g 0 = .ok w' ∧ Node B w' S g ∧
        Is w' S g (fun t => ⨅ r ∈ Set.Icc (t + a) (min (t + b) K), f r) := by
  obtain ⟨w, h1, h2, h3⟩ := hz.talw (old := old) ha hab (fun c d => by
    rw [show S + a + (b - a) = S + b by ring] at c ⊢
    exact hk c d)
  rw [add_sub_cancel_right] at h2 
  refine ⟨w, h1, h2.e, fun g hg1 hg2 => ?_⟩
  obtain ⟨w', r1, r2, r3, _⟩ := h2.resize 0 le_rfl hg1 hg2
  refine ⟨w', r1, r2, fun t c d => ?_⟩
  rw [r3 h2.keeps_begin t c d]
  have hT := h3 t (by linarith) (by linarith)
  refine hT.inf hz (fun r c' d' => ?_) (by linarith) (min_le_right _ _)
  exact hf r (by linarith) (d'.trans (min_le_right _ _))

/-- A single sample. -/
theorem node_point {B S c : ℚ} (h1 : -B ≤ c) (h2 : c ≤ B) :
    Node B ⟨[⟨S, c, 0⟩], S, S⟩ S S ∧ Is ⟨[⟨S, c, 0⟩], S, S⟩ S S (fun _ => er c) := by
  have hw : WF (⟨[⟨S, c, 0⟩], S, S⟩ : Signal) := ⟨⟨by simp, by simp, by simp [Sorted], by simp⟩, by simp⟩
  have hv : (⟨[⟨S, c, 0⟩], S, S⟩ : Signal).v (pl S) = c := hw.v_begin rfl
  have key : ∀ t, S ≤ t → t ≤ S → (⟨[⟨S, c, 0⟩], S, S⟩ : Signal).v (pl t) = c := fun t a b => by
    rw [le_antisymm b a, hv]
  exact ⟨⟨rfl, rfl, hw.toWF0, hw.cg_point rfl, fun t a b => by rw [key t a b]; exact ⟨h1, h2⟩⟩,
    fun t a b => by rw [key t a b]⟩

end STLRom
