import Verif.Proofs.StepTimed
import Verif.Proofs.PartialBound

/-!
# Step signals whose operands are known up to different times
-/

namespace STLRom
open Signal Spec

/-! ## `eventually` to the end of the signal -/

theorem partialEventually_step {s : ℚ} : ∀ (is z : List Sample) (t : ℚ) (c : Bool) (zmax : ℚ)
    (z' is' : List Sample), Flat is → is.Pairwise (fun p q => q.time < p.time) →
    (c = true → ∀ p ∈ is, p.time < t) → (c = false → z = []) → (∀ p ∈ z, t < p.time) →
    Flat z → SInc z → (∀ p ∈ is, s ≤ p.time) →
    partialEventually s z is t c zmax = .ok (z', is') → Flat z' ∧ SInc z'
  | [], z, t, c, zmax, z', is' => by
    intro _ _ _ _ _ _ _ _ h; simp [partialEventually] at h
  | i :: is, z, t, c, zmax, z', is' => by
    intro hf hs hc hcz hz hfz hsz hfrom h
    have hi0 : i.derivative = 0 := hf i (by simp)
    have hf' : Flat is := fun q hq => hf q (by simp [hq])
    obtain ⟨hs1, hs2⟩ := List.pairwise_cons.1 hs
    -- what is pushed when the maximum grows
    have push : let y := (if c = true then (⟨t, zmax, 0⟩ :: z : List Sample) else z)
        Flat y ∧ SInc y ∧ ∀ p ∈ y, i.time < p.time := by
      cases c with
      | true =>
        have hit := hc rfl i (by simp)
        refine ⟨flat_cons rfl hfz, List.pairwise_cons.2 ⟨fun p hp => hz p hp, hsz⟩, ?_⟩
        intro p hp
        rcases List.mem_cons.1 hp with rfl | hp
        · exact hit
        · exact hit.trans (hz p hp)
      | false =>
        obtain rfl := hcz rfl
        exact ⟨by simp [Flat], by simp [SInc], by simp⟩
    have keep : ∀ p ∈ z, i.time < p.time := by
      cases c with
      | true => exact fun p hp => (hc rfl i (by simp)).trans (hz p hp)
      | false => rw [hcz rfl]; simp
    rw [partialEventually] at h
    by_cases h1 : s < i.time
    · rw [if_pos h1, if_pos hi0.ge] at h
      by_cases h2 : zmax < i.valueAt t
      · rw [if_pos h2] at h
        exact partialEventually_step is _ _ _ _ z' is' hf' hs2 (fun _ => hs1) (by simp) push.2.2 push.1
          push.2.1 (fun p hp => hfrom p (by simp [hp])) h
      · rw [if_neg h2] at h
        exact partialEventually_step is _ _ _ _ z' is' hf' hs2 (fun _ => hs1) (by simp) keep hfz hsz
          (fun p hp => hfrom p (by simp [hp])) h
    · have his : i.time = s := le_antisymm (not_lt.1 h1) (hfrom i (by simp))
      rw [if_neg h1, if_pos hi0.ge] at h
      by_cases h2 : zmax < i.valueAt t
      · rw [if_pos h2] at h
        simp only [Except.ok.injEq, Prod.mk.injEq] at h
        rw [← h.1]
        exact ⟨flat_cons rfl push.1, List.pairwise_cons.2 ⟨fun p hp => by rw [← his]; exact push.2.2 p hp, push.2.1⟩⟩
      · rw [if_neg h2] at h
        simp only [Except.ok.injEq, Prod.mk.injEq] at h
        rw [← h.1]
        exact ⟨flat_cons rfl hfz, List.pairwise_cons.2 ⟨fun p hp => by rw [← his]; exact keep p hp, hsz⟩⟩

theorem computeEventually_step {x z : Signal} {B : ℚ} (hx : WF0 x) (hs : SInc x.samples)
    (hf : Flat x.samples) (h : computeEventually B x = .ok z) : Flat z.samples ∧ SInc z.samples := by
  unfold computeEventually at h
  obtain ⟨⟨w, is'⟩, h1, h⟩ := bind_eq_ok.1 h
  simp only [Except.ok.injEq] at h
  rw [← h]
  exact partialEventually_step _ _ _ _ _ w is' (fun q hq => hf q (List.mem_reverse.1 hq)) hs.reverse (by simp)
    (fun _ => rfl) (by simp) (by simp [Flat]) (by simp [SInc])
    (fun p hp => hx.begin_le p (List.mem_reverse.1 hp)) h1

/-- The timed `eventually` of a step signal. -/
theorem computeTimedEventually_flat {old x z : Signal} {B a b : ℚ} (hx : WF0 x)
    (hs : SInc x.samples) (hf : Flat x.samples) (ha : 0 ≤ a)
    (hB : ∀ σ, pl x.beginTime ≤ σ → σ ≤ pl x.endTime → -B ≤ x.v σ)
    (h : computeTimedEventually B old x a b = .ok z) : Flat z.samples ∧ SInc z.samples := by
  by_cases hlt : a < b → x.beginTime + (b - a) < x.endTime
  · exact computeTimedEventually_step hx hs hf ha hlt hB h
  · push Not at hlt
    have hy : (if 0 < a then shift x (-a) else x) = shift x (-a) := by
      split_ifs with h
      · rfl
      · rw [le_antisymm (not_lt.1 h) ha, neg_zero, Signal.shift_zero]
    have hyb : (x.shift (-a)).beginTime = x.beginTime - a := by simp [Signal.shift, sub_eq_add_neg]
    have hye : (x.shift (-a)).endTime = x.endTime - a := by simp [Signal.shift, sub_eq_add_neg]
    simp only [computeTimedEventually, if_neg hx.ne, hy] at h
    rw [if_neg (by linarith [hlt.1]), if_pos (by rw [hyb, hye]; linarith [hlt.2])] at h
    exact computeEventually_step (hx.shift _) (hs.shift _) (hf.shift _) h

/-! ## Boolean operators -/

/-- As `SNode.and`, when the operands end at different times. -/
theorem SNode.and2 {B : ℚ} {x y : Signal} {S E1 E2 : ℚ} (hx : SNode B x S E1) (hy : SNode B y S E2)
    (ex : S < min E1 E2 → x.v (mi (min E1 E2)) = x.v (pl (min E1 E2)))
    (ey : S < min E1 E2 → y.v (mi (min E1 E2)) = y.v (pl (min E1 E2))) :
    ∃ z, computeAndM x y = .ok z ∧ SNode B z S (min E1 E2) ∧
      ∀ t, S ≤ t → t ≤ min E1 E2 → z.v (pl t) = min (x.v (pl t)) (y.v (pl t)) := by
  set E := min E1 E2 with hE
  have b1 : ∀ {t}, t ≤ E → t ≤ E1 := fun h => h.trans (min_le_left _ _)
  have b2 : ∀ {t}, t ≤ E → t ≤ E2 := fun h => h.trans (min_le_right _ _)
  rcases (le_min hx.le hy.le).lt_or_eq with h | h
  · rw [← hE] at h
    have hlt : max x.beginTime y.beginTime < min x.endTime y.endTime := by
      rw [hx.b, hy.b, hx.e, hy.e, max_self]; exact h
    obtain ⟨z, h1, h2⟩ := computeAndM_spec_lt hx.wf hy.wf hlt
    rw [hx.b, hy.b, hx.e, hy.e, max_self, ← hE] at h2
    obtain ⟨h3, h4⟩ := computeAndM_step hx.wf hy.wf (hx.flat (h.trans_le (b1 le_rfl)))
      (hy.flat (h.trans_le (b2 le_rfl))) hx.sinc hy.sinc hlt h1
    have hv : ∀ t, S ≤ t → t ≤ E → z.v (pl t) = min (x.v (pl t)) (y.v (pl t)) := by
      intro t a b
      rcases b.lt_or_eq with b | rfl
      · exact h2.val _ (by simpa using a) (by simpa using b)
      · rw [h2.last h, h2.val _ (by simpa using h) le_rfl, ex h, ey h]
    refine ⟨z, h1, ⟨h2.begin_eq, h2.end_eq, h2.wf.toWF0, h4, fun _ => h3, fun t a b => ?_⟩, hv⟩
    rw [hv t a b]
    exact ⟨le_min (hx.bd t a (b1 b)).1 (hy.bd t a (b2 b)).1, (min_le_left _ _).trans (hx.bd t a (b1 b)).2⟩
  · rw [← hE] at h
    obtain ⟨z, h1, h2⟩ := computeAndM_spec_eq hx.wf' hy.wf' (by rw [hx.b, hy.b])
      (by rw [hx.e, hy.e, hx.b, ← hE, h])
    rw [hx.b] at h2
    have hv : ∀ t, S ≤ t → t ≤ E → z.v (pl t) = min (x.v (pl t)) (y.v (pl t)) := by
      intro t a b
      obtain rfl : t = S := le_antisymm (b.trans h.ge) a
      exact h2.point rfl
    refine ⟨z, h1, ⟨h2.begin_eq, h2.end_eq.trans h, h2.wf.toWF0, ?_, fun h' => absurd h h'.ne,
      fun t a b => ?_⟩, hv⟩
    · obtain ⟨p, l, hl, hp⟩ := h2.wf.exists_cons
      cases l with
      | nil => rw [hl]; simp [SInc]
      | cons q l =>
        have a := h2.wf.strict q (by simp [hl])
        have b := h2.wf.le_end q (by simp [hl])
        rw [h2.begin_eq] at a
        rw [h2.end_eq] at b
        exact absurd a (not_lt.2 b)
    · rw [hv t a b]
      exact ⟨le_min (hx.bd t a (b1 b)).1 (hy.bd t a (b2 b)).1, (min_le_left _ _).trans (hx.bd t a (b1 b)).2⟩

/-- `resize` to the signal's own interval. -/
theorem SNode.cut {B : ℚ} {x : Signal} {S E u w : ℚ} (v : ℚ) (hx : SNode B x S E) (hu : S ≤ u) (huw : u ≤ w)
    (hw : w ≤ E) : ∃ z, Signal.resize x u w v = .ok z ∧ SNode B z u w ∧
      ∀ t, u ≤ t → t ≤ w → z.v (pl t) = x.v (pl t) := by
  have hk : KeepsSlope x u := by
    rcases (hu.trans (huw.trans hw)).lt_or_eq with h | h
    · exact keepsSlope_flat (hx.flat h) u
    · exact Or.inl (by rw [hx.b]; exact le_antisymm hu (h ▸ huw.trans hw))
  obtain ⟨z, c1, c2, c3, c4, c5, c6, _⟩ := resize_inside (x := x) (s := u) (t := w) v hx.wf.wfb
    (by rw [hx.b]; exact hu) huw (by rw [hx.e]; exact hw) hk
  have hv : ∀ t, u ≤ t → t ≤ w → z.v (pl t) = x.v (pl t) := by
    intro t c d
    unfold Signal.v
    rw [c5 (pl t) (by simpa using c) (by simpa using d)]
  refine ⟨z, c1, ⟨c2, c3, c4, c6 hx.sinc, fun h => resize_flat (hx.flat (by linarith)) c1, fun t c d => ?_⟩, hv⟩
  rw [hv t c d]
  exact hx.bd t (hu.trans c) (d.trans hw)

theorem SNode.andBound {x y : Signal} {B S E1 E2 : ℚ} (v : ℚ) (hx : SNode B x S E1) (hy : SNode B y S E2)
    (ex : S < min E1 E2 → x.v (mi (min E1 E2)) = x.v (pl (min E1 E2)))
    (ey : S < min E1 E2 → y.v (mi (min E1 E2)) = y.v (pl (min E1 E2))) :
    ∃ z w p, computeAndM x y = .ok z ∧ z.endTime = min E1 E2 ∧ Signal.resize z S (min E1 E2) v = .ok w ∧
      SNode B w S (min E1 E2) ∧
      (∀ t, S ≤ t → t ≤ min E1 E2 → w.v (pl t) = min (x.v (pl t)) (y.v (pl t))) ∧ w.front = .ok p ∧
      p.value = w.v (pl S) := by
  obtain ⟨z, h1, h2, h3⟩ := hx.and2 hy ex ey
  obtain ⟨w, k1, k2, k3⟩ := h2.cut v le_rfl h2.le le_rfl
  obtain ⟨p, hp, hp'⟩ := k2.front
  exact ⟨z, w, p, h1, h2.e, k1, k2, fun t a b => (k3 t a b).trans (h3 t a b), hp, hp'⟩

theorem SNode.orBound {x y : Signal} {B S E1 E2 : ℚ} (v : ℚ) (hx : SNode B x S E1) (hy : SNode B y S E2)
    (ex : S < min E1 E2 → x.v (mi (min E1 E2)) = x.v (pl (min E1 E2)))
    (ey : S < min E1 E2 → y.v (mi (min E1 E2)) = y.v (pl (min E1 E2))) :
    ∃ z w p, computeOrM x y = .ok z ∧ z.endTime = min E1 E2 ∧ Signal.resize z S (min E1 E2) v = .ok w ∧
      SNode B w S (min E1 E2) ∧
      (∀ t, S ≤ t → t ≤ min E1 E2 → w.v (pl t) = max (x.v (pl t)) (y.v (pl t))) ∧ w.front = .ok p ∧
      p.value = w.v (pl S) := by
  obtain ⟨z, h1, h2, h3⟩ := hx.not.and2 hy.not (fun h => by rw [v_not, v_not, ex h])
    (fun h => by rw [v_not, v_not, ey h])
  rw [computeAndM_not] at h1
  obtain ⟨w, k1, k2, k3⟩ := h2.not.cut v le_rfl h2.le le_rfl
  obtain ⟨p, hp, hp'⟩ := k2.front
  refine ⟨computeNot z, w, p, except_map_computeNot h1, h2.e, k1, k2, fun t a b => ?_, hp, hp'⟩
  rw [k3 t a b, v_not, h3 t a b, v_not, v_not, min_neg_neg, neg_neg]

/-! ## Temporal operators -/

/-- The supremum over a window. -/
theorem SNode.sups {x : Signal} {S E u w B v : ℚ} {f : ℚ → EReal} (hx : SNode B x S E)
    (hf : Is x u w f) (hu : S ≤ u) (hw : w ≤ E) (h : Top x.v (pl u) (pl w) v) :
    ⨆ r ∈ Set.Icc u w, f r = er v := by
  refine le_antisymm (iSup₂_le fun r hr => ?_) ?_
  · rw [hf r hr.1 hr.2, er_le]
    exact h.2 _ (by simpa using hr.1) (by simpa using hr.2)
  · obtain ⟨σ, h1, h2, h3⟩ := h.1
    have key : ∀ r, u ≤ r → r ≤ w → x.v (pl r) = v → er v ≤ ⨆ r ∈ Set.Icc u w, f r := by
      intro r a b c
      rw [← c, ← hf r a b]
      exact le_iSup₂_of_le r ⟨a, b⟩ le_rfl
    rcases Pt.cases σ with e | e
    · rw [e] at h1 h2 h3
      exact key _ (by simpa using h1) (by simpa using h2) h3
    · rw [e] at h1 h2 h3
      rw [pl_le_mi] at h1
      rw [le_pl_iff, mi_time] at h2
      obtain ⟨r, r1, r2, r3⟩ := hx.left hu h1 (h2.trans hw)
      exact key r r1 (r2.le.trans h2) (by rw [r3 r le_rfl r2, h3])

/-- `ev` over an operand on `[u, K]`.  Its value at the very end `K - a` is right only if the
operand does not jump at `K` or the window spans the whole operand. -/
theorem SNode.ev_pre {old z : Signal} {B a b S u K : ℚ} {f : ℚ → EReal} (hz : SNode B z u K)
    (hu : u ≤ S + a) (hf : Is z (S + a) K f) (ha : 0 ≤ a) (hab : a ≤ b) :
    ∃ w, computeTimedEventually B old z a b = .ok w ∧ w.endTime = K - a ∧
      ∀ g, S ≤ g → g ≤ K - a →
        (a < b → u + (b - a) < K → g < K - a ∨ z.v (mi K) = z.v (pl K)) →
        ∃ w', Signal.resize w S g 0 = .ok w' ∧ SNode B w' S g ∧
          Is w' S g (fun t => ⨆ r ∈ Set.Icc (t + a) (min (t + b) K), f r) := by
  have hB : ∀ σ, pl z.beginTime ≤ σ → σ ≤ pl z.endTime → -B ≤ z.v σ := fun σ c d =>
    (hz.bdp (by rw [← hz.b]; exact c) (by rw [← hz.e]; exact d)).1
  obtain ⟨w, h1, h2, h3, h4, h5, _⟩ := computeTimedEventually_spec (B := B) (old := old) hz.wf
    (Or.inl hz.sinc) ha hab (fun h _ => keepsSlope_flat (hz.flat (by rw [hz.b, hz.e] at h; linarith)) _) hB
  rw [hz.b] at h2
  rw [hz.e] at h3
  refine ⟨w, h1, h3, fun g hg1 hg2 hcl => ?_⟩
  have hT : ∀ t, S ≤ t → t ≤ g → Top z.v (pl (t + a)) (pl (min (t + b) K)) (w.v (pl t)) := by
    intro t c d
    have := h5 (pl t) (by rw [h2, pl_le_pl]; linarith) (by rw [h3, pl_le_pl]; linarith) (fun e1 e2 => by
      rw [hz.b, hz.e] at e1
      rcases hcl e2 e1 with h | h
      · left; rw [h3, pl_le_mi]; linarith
      · right; rw [hz.e]; exact h)
    rw [hz.e] at this
    simp only [pl_shift] at this
    rcases le_total (t + b) K with k | k
    · rwa [min_eq_left (by simpa using k), ← min_eq_left k] at this
    · rwa [min_eq_right (by simpa using k), ← min_eq_right k] at this
  have hbd : ∀ t, S ≤ t → t ≤ g → -B ≤ w.v (pl t) ∧ w.v (pl t) ≤ B := by
    intro t c d
    obtain ⟨σ, k1, k2, k3⟩ := (hT t c d).1
    rw [← k3]
    exact hz.bdp (le_trans (by rw [pl_le_pl]; linarith) k1) (k2.trans (by rw [pl_le_pl]; exact min_le_right _ _))
  have hsi : SInc w.samples ∧ (u < K → Flat w.samples) := by
    rcases hz.le.lt_or_eq with h | h
    · obtain ⟨s1, s2⟩ := computeTimedEventually_flat hz.wf hz.sinc (hz.flat h) ha hB h1
      exact ⟨s2, fun _ => s1⟩
    · refine ⟨?_, fun h' => absurd h h'.ne⟩
      have hw := h4.2 hz.wf'
      obtain ⟨p, l, hl, hp⟩ := hw.exists_cons
      cases l with
      | nil => rw [hl]; simp [SInc]
      | cons q l =>
        have c1 := hw.strict q (by simp [hl])
        have c2 := hw.le_end q (by simp [hl])
        rw [h2] at c1
        rw [h3, ← h] at c2
        exact absurd c1 (not_lt.2 c2)
  have hk : KeepsSlope w S := by
    rcases hz.le.lt_or_eq with h | h
    · exact keepsSlope_flat (hsi.2 h) S
    · exact Or.inl (by rw [h2]; linarith)
  obtain ⟨w', c1, c2, c3, c4, c5, c6, _⟩ := resize_inside (x := w) (s := S) (t := g) 0 h4.1.wfb
    (by rw [h2]; linarith) hg1 (by rw [h3]; exact hg2) hk
  have hv : ∀ t, S ≤ t → t ≤ g → w'.v (pl t) = w.v (pl t) := by
    intro t c d
    unfold Signal.v
    rw [c5 (pl t) (by simpa using c) (by simpa using d)]
  refine ⟨w', c1, ⟨c2, c3, c4, c6 hsi.1, fun h => resize_flat (hsi.2 (by linarith)) c1, fun t c d => ?_⟩,
    fun t c d => ?_⟩
  · rw [hv t c d]; exact hbd t c d
  · rw [hv t c d]
    exact hz.sups (fun r c' d' => hf r (by linarith) (d'.trans (min_le_right _ _))) (by linarith)
      (min_le_right _ _) (hT t c d)

theorem SNode.alw_pre {old z : Signal} {B a b S u K : ℚ} {f : ℚ → EReal} (hz : SNode B z u K)
    (hu : u ≤ S + a) (hf : Is z (S + a) K f) (ha : 0 ≤ a) (hab : a ≤ b) :
    ∃ w, computeTimedGlobally B old z a b = .ok w ∧ w.endTime = K - a ∧
      ∀ g, S ≤ g → g ≤ K - a →
        (a < b → u + (b - a) < K → g < K - a ∨ z.v (mi K) = z.v (pl K)) →
        ∃ w', Signal.resize w S g 0 = .ok w' ∧ SNode B w' S g ∧
          Is w' S g (fun t => ⨅ r ∈ Set.Icc (t + a) (min (t + b) K), f r) := by
  obtain ⟨w, h1, h2, h3⟩ := hz.not.ev_pre (old := old) hu hf.not ha hab
  refine ⟨computeNot w, ?_, h2, fun g hg1 hg2 hcl => ?_⟩
  · have := computeTimedGlobally_not B old (computeNot z) a b
    rw [computeNot_computeNot, h1] at this
    exact this
  · obtain ⟨w', k1, k2, k3⟩ := h3 g hg1 hg2 (fun e1 e2 => (hcl e1 e2).imp id fun h => by rw [v_not, v_not, h])
    refine ⟨computeNot w', ?_, k2.not, fun t c d => ?_⟩
    · have := resize_not w S g 0
      rw [neg_zero, k1] at this
      exact this
    · rw [v_not, er_neg, ← k3 t c d]
      have e : -(⨆ r ∈ Set.Icc (t + a) (min (t + b) K), -f r) =
          ⨅ r ∈ Set.Icc (t + a) (min (t + b) K), f r := by
        simp only [neg_sup_ereal, neg_neg]
      exact e.symm

/-- A single sample. -/
theorem snode_point {B S c : ℚ} (h1 : -B ≤ c) (h2 : c ≤ B) :
    SNode B ⟨[⟨S, c, 0⟩], S, S⟩ S S ∧ Is ⟨[⟨S, c, 0⟩], S, S⟩ S S (fun _ => er c) := by
  obtain ⟨n1, n2⟩ := node_point (S := S) h1 h2
  exact ⟨⟨rfl, rfl, n1.wf, by simp [SInc], fun h => absurd h (lt_irrefl _), n1.bd⟩, n2⟩

theorem trimBack_self {t : ℚ} {l : List Sample} (h : ∀ p ∈ l, p.time ≤ t) : trimBack t l = l := by
  unfold trimBack
  cases hr : l.reverse with
  | nil => simpa using hr.symm
  | cons q m =>
    have hq : q ∈ l := List.mem_reverse.1 (by rw [hr]; simp)
    rw [List.dropWhile_cons_of_neg (by simpa using h q hq), ← hr, List.reverse_reverse]

/-- Extending a step signal to the left by its first value. -/
theorem SNode.extend {B : ℚ} {x z : Signal} {S E u : ℚ} (hx : SNode B x S E) (hfl : Flat x.samples)
    (hu : u ≤ S) (h : Signal.resize x u E 0 = .ok z) :
    SNode B z u E ∧ (∀ t, S ≤ t → t ≤ E → z.v (pl t) = x.v (pl t)) ∧
      (u < S → z.v (mi S) = z.v (pl S)) := by
  rcases hu.lt_or_eq with hlt | rfl
  · obtain ⟨p, l, hl, hp⟩ := hx.wf.exists_cons
    have hE := hx.le
    have hle : ∀ q ∈ (⟨u, p.value, 0⟩ :: x.samples : List Sample), q.time ≤ E := by
      intro q hq
      rcases List.mem_cons.1 hq with rfl | hq
      · exact hu.trans hE
      · rw [← hx.e]; exact hx.wf.le_end q hq
    have hz : z = ⟨⟨u, p.value, 0⟩ :: x.samples, u, E⟩ := by
      unfold Signal.resize at h
      have := tol_pos
      rw [if_neg (by linarith)] at h
      have hfront : resizeFront x u = .ok ⟨⟨u, p.value, 0⟩ :: x.samples, x.beginTime, x.endTime⟩ := by
        unfold resizeFront
        rw [if_pos (by rw [hx.b]; exact hlt), hl]
      rw [hfront] at h
      simp only [bind, Except.bind, resizeBack, hx.e, lt_irrefl, if_false, if_neg (not_lt.2 (hu.trans hE)),
        trimBack_self hle] at h
      simpa using h.symm
    subst hz
    have hlate : ∀ t, S ≤ t → Signal.v ⟨⟨u, p.value, 0⟩ :: x.samples, u, E⟩ (pl t) = x.v (pl t) := by
      intro t c
      have h2 := hx.wf.val (τ := pl t) (by rw [hx.b]; simpa using c)
      apply Signal.v_of_val
      exact val_cons_of_some h2
    have hearly : ∀ τ, pl u ≤ τ → τ < pl S →
        Signal.v ⟨⟨u, p.value, 0⟩ :: x.samples, u, E⟩ τ = x.v (pl S) := by
      intro τ c k
      have h0 := hx.wf'.v_begin hl
      rw [hx.b] at h0
      rw [h0]
      apply Signal.v_of_val
      show val (⟨u, p.value, 0⟩ :: x.samples) τ = _
      rw [val_cons_of_lt ?_ c]
      · simp [Sample.valueAt]
      · intro q hq
        have := hx.wf.begin_le q hq
        rw [hx.b] at this
        exact k.trans_le (by simpa using this)
    refine ⟨⟨rfl, rfl, ⟨by simp, by simp, ?_, hle⟩, ?_, fun _ => flat_cons rfl hfl, fun t c d => ?_⟩,
      fun t c d => hlate t c, fun _ => ?_⟩
    · refine List.pairwise_cons.2 ⟨fun q hq => ?_, hx.wf.sorted⟩
      have := hx.wf.begin_le q hq
      rw [hx.b] at this
      exact hu.trans this
    · refine List.pairwise_cons.2 ⟨fun q hq => ?_, hx.sinc⟩
      have := hx.wf.begin_le q hq
      rw [hx.b] at this
      exact hlt.trans_le this
    · rcases le_or_gt S t with k | k
      · rw [hlate t k]; exact hx.bd t k d
      · rw [hearly _ (by simpa using c) (by simpa using k)]; exact hx.bd S le_rfl hE
    · rw [hearly _ (by simpa using hlt) (by simp), hlate S le_rfl]
  · obtain ⟨z', h1, h2, h3⟩ := hx.cut 0 le_rfl hx.le le_rfl
    rw [h] at h1
    obtain rfl := Except.ok.inj h1
    exact ⟨h2, h3, fun h => absurd h (lt_irrefl _)⟩

end STLRom
