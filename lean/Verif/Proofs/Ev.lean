import Verif.Proofs.Resize

/-!
# The untimed `eventually` computes the running supremum of the future
-/

namespace STLRom
open Signal

/-- `v` is the greatest value of `X` between the points `τ` and `U`. -/
def Top (X : Pt → ℚ) (τ U : Pt) (v : ℚ) : Prop :=
  (∃ σ, τ ≤ σ ∧ σ ≤ U ∧ X σ = v) ∧ ∀ σ, τ ≤ σ → σ ≤ U → X σ ≤ v

theorem Top.unique {X : Pt → ℚ} {τ U : Pt} {v w : ℚ} (h : Top X τ U v) (h' : Top X τ U w) :
    v = w := by
  obtain ⟨⟨σ, a, b, rfl⟩, h2⟩ := h
  obtain ⟨⟨σ', a', b', rfl⟩, h2'⟩ := h'
  exact le_antisymm (h2' σ a b) (h2 σ' a' b')

/-- `a` lies between `b` and `c`. -/
def Between (a b c : ℚ) : Prop := min b c ≤ a ∧ a ≤ max b c

/-- No sample of the signal sticks out: zero-length samples lie between the two one-sided
values at their time. -/
def GC (x : Signal) : Prop :=
  ∀ p ∈ x.samples, x.beginTime < p.time → Between p.value (x.v (mi p.time)) (x.v (pl p.time))

/-- State of the backward scan: everything after `m` is done and denoted by `z`. -/
structure EvJ (Q : Prop) (X : Pt → ℚ) (U m : Pt) (z : List Sample) (zmax : ℚ) : Prop where
  hub : ∀ σ, m < σ → σ ≤ U → X σ ≤ zmax
  hatt : ∃ σ, m ≤ σ ∧ σ ≤ U ∧ zmax ≤ X σ
  hz : ∀ p ∈ z, m < pl p.time
  sorted : Sorted z
  le_end : ∀ p ∈ z, p.time ≤ U.time
  val : ∀ τ, m < τ → τ ≤ U → ∃ v, val z τ = some v ∧ Top X τ U v
  vc : Q → ∀ p ∈ z, Top X (pl p.time) U p.value

theorem val_none_of_lt {z : List Sample} {τ : Pt} (h : ∀ p ∈ z, τ < pl p.time) :
    val z τ = none := by
  simp [val, cur_eq_none.2 h]

/-- Pushing a sample that denotes the maximum on `[s, m]`. -/
theorem EvJ.push {Q : Prop} {X : Pt → ℚ} {U m : Pt} {z : List Sample} {zmax zmax' : ℚ} {p : Sample}
    (h : EvJ Q X U m z zmax) (hpm : mi p.time ≤ m) (hmU : m ≤ U)
    (htop : ∀ τ, pl p.time ≤ τ → τ ≤ m → Top X τ U (p.valueAt τ.time))
    (hle : zmax ≤ zmax') (hub : ∀ τ, pl p.time ≤ τ → τ ≤ m → X τ ≤ zmax')
    (hatt : ∃ σ, mi p.time ≤ σ ∧ σ ≤ U ∧ zmax' ≤ X σ)
    (hvc : Q → m < pl p.time → Top X (pl p.time) U p.value) :
    EvJ Q X U (mi p.time) (p :: z) zmax' := by
  have hpz : ∀ q ∈ z, p.time ≤ q.time := by
    intro q hq
    have := lt_of_le_of_lt hpm (h.hz q hq)
    simpa using this
  refine ⟨?_, hatt, ?_, ?_, ?_, ?_, ?_⟩
  · intro σ h1 h2
    rw [mi_lt_iff] at h1
    rcases le_or_gt σ m with h3 | h3
    · exact hub σ h1 h3
    · exact (h.hub σ h3 h2).trans hle
  · intro q hq
    rcases List.mem_cons.1 hq with rfl | hq
    · simp
    · simpa using hpz q hq
  · exact sorted_cons h.sorted (fun q hq => hpz q hq)
  · intro q hq
    rcases List.mem_cons.1 hq with rfl | hq
    · have := Pt.time_le (hpm.trans hmU); simpa using this
    · exact h.le_end q hq
  · intro τ h1 h2
    rw [mi_lt_iff] at h1
    rcases le_or_gt τ m with h3 | h3
    · refine ⟨_, ?_, htop τ h1 h3⟩
      rw [val_cons_of_lt _ h1]
      intro q hq
      exact lt_of_le_of_lt h3 (h.hz q hq)
    · obtain ⟨v, hv, hv'⟩ := h.val τ h3 h2
      exact ⟨v, val_cons_of_some hv, hv'⟩
  · intro hQ q hq
    rcases List.mem_cons.1 hq with rfl | hq
    · rcases le_or_gt (pl q.time) m with h3 | h3
      · have := htop _ le_rfl h3
        rwa [show (pl q.time).time = q.time from rfl, valueAt_self] at this
      · exact hvc hQ h3
    · exact h.vc hQ q hq

/-- The list with the pending flat piece pushed. -/
def pend (t : ℚ) (c : Bool) (zmax : ℚ) (z : List Sample) : List Sample :=
  if c then ⟨t, zmax, 0⟩ :: z else z

theorem pend_eq (t : ℚ) (c : Bool) (zmax : ℚ) (z : List Sample) :
    (if c then (⟨t, zmax, 0⟩ :: z : List Sample) else z) = pend t c zmax z := rfl

/-- Extending (or opening) the pending flat piece. -/
theorem EvJ.flat {Q : Prop} {X : Pt → ℚ} {U m : Pt} {z : List Sample} {zmax s t : ℚ} {c : Bool}
    (h : EvJ Q X U m (pend t c zmax z) zmax) (hsm : mi s ≤ m) (hmU : m ≤ U)
    (htop : ∀ τ, pl s ≤ τ → τ ≤ m → Top X τ U zmax)
    (hvc : Q → m < pl s → Top X (pl s) U zmax) :
    EvJ Q X U (mi s) (⟨s, zmax, 0⟩ :: z) zmax := by
  have hsub : ∀ q ∈ z, q ∈ pend t c zmax z := by
    intro q hq; unfold pend; split_ifs <;> simp [hq]
  have hsz : Sorted z := by
    have := h.sorted
    unfold pend at this
    split_ifs at this
    · exact (List.pairwise_cons.1 this).2
    · exact this
  have hpz : ∀ q ∈ z, s ≤ q.time := by
    intro q hq
    have := lt_of_le_of_lt hsm (h.hz q (hsub q hq))
    simpa using this
  refine ⟨?_, ?_, ?_, ?_, ?_, ?_, ?_⟩
  · intro σ h1 h2
    rw [mi_lt_iff] at h1
    rcases le_or_gt σ m with h3 | h3
    · exact (htop σ h1 h3).2 σ le_rfl h2
    · exact h.hub σ h3 h2
  · obtain ⟨σ, h1, h2, h3⟩ := h.hatt
    exact ⟨σ, hsm.trans h1, h2, h3⟩
  · intro q hq
    rcases List.mem_cons.1 hq with rfl | hq
    · simp
    · simpa using hpz q hq
  · exact sorted_cons hsz (fun q hq => hpz q hq)
  · intro q hq
    rcases List.mem_cons.1 hq with rfl | hq
    · have := Pt.time_le (hsm.trans hmU); simpa using this
    · exact h.le_end q (hsub q hq)
  · intro τ h1 h2
    rw [mi_lt_iff] at h1
    rcases le_or_gt τ m with h3 | h3
    · refine ⟨_, ?_, htop τ h1 h3⟩
      rw [val_cons_of_lt _ h1]
      · simp [Sample.valueAt]
      intro q hq
      exact lt_of_le_of_lt h3 (h.hz q (hsub q hq))
    · obtain ⟨v, hv, hv'⟩ := h.val τ h3 h2
      refine ⟨v, ?_, hv'⟩
      rw [← hv]
      cases c with
      | false =>
        have hv2 : STLRom.val z τ = some v := hv
        rw [val_cons_of_some hv2, hv]
      | true =>
        simp only [pend, if_true]
        have hv2 : STLRom.val (⟨t, zmax, 0⟩ :: z) τ = some v := hv
        simp only [STLRom.val, cur] at hv2 ⊢
        rcases hc : cur z τ with _ | q
        · simp only [hc, Option.none_or] at hv2 ⊢
          by_cases ht : pl t ≤ τ
          · simp [ht, h1, Sample.valueAt]
          · simp [ht] at hv2
        · simp
  · intro hQ q hq
    rcases List.mem_cons.1 hq with rfl | hq
    · rcases le_or_gt (pl s) m with h3 | h3
      · exact htop _ le_rfl h3
      · exact hvc hQ h3
    · exact h.vc hQ q (hsub q hq)

/-- Maximum over a rising piece followed by what is already known. -/
theorem top_rising {X : Pt → ℚ} {U m τ : Pt} {zmax w : ℚ} {i : Sample}
    (hub : ∀ σ, m < σ → σ ≤ U → X σ ≤ zmax) (hatt : ∃ σ, m ≤ σ ∧ σ ≤ U ∧ zmax ≤ X σ)
    (hmU : m ≤ U) (hτm : τ ≤ m) (hseg : ∀ σ, τ ≤ σ → σ ≤ m → X σ = i.valueAt σ.time)
    (hd : 0 ≤ i.derivative) (hw : w = max zmax (i.valueAt m.time)) : Top X τ U w := by
  have hm : X m = i.valueAt m.time := hseg m hτm le_rfl
  constructor
  · rcases le_or_gt zmax (i.valueAt m.time) with h | h
    · exact ⟨m, hτm, hmU, by rw [hm, hw, max_eq_right h]⟩
    · obtain ⟨σ, h1, h2, h3⟩ := hatt
      rcases eq_or_lt_of_le h1 with rfl | h1
      · rw [hm] at h3; exact absurd h3 (not_le.2 h)
      · exact ⟨σ, hτm.trans h1.le, h2, by
          rw [hw, max_eq_left h.le]; exact le_antisymm (hub σ h1 h2) h3⟩
  · intro σ h1 h2
    rw [hw]
    rcases le_or_gt σ m with h3 | h3
    · rw [hseg σ h1 h3]
      refine le_trans ?_ (le_max_right _ _)
      have := Pt.time_le h3
      simp only [Sample.valueAt]
      have := mul_le_mul_of_nonneg_left (sub_le_sub_right this i.time) hd
      linarith
    · exact (hub σ h3 h2).trans (le_max_left _ _)

/-- Maximum over a falling piece followed by what is already known. -/
theorem top_falling {X : Pt → ℚ} {U m τ : Pt} {zmax w : ℚ} {i : Sample}
    (hub : ∀ σ, m < σ → σ ≤ U → X σ ≤ zmax) (hatt : ∃ σ, m ≤ σ ∧ σ ≤ U ∧ zmax ≤ X σ)
    (hmU : m ≤ U) (hτm : τ ≤ m) (hseg : ∀ σ, τ ≤ σ → σ ≤ m → X σ = i.valueAt σ.time)
    (hd : i.derivative ≤ 0) (hw : w = max zmax (i.valueAt τ.time)) : Top X τ U w := by
  have hτ : X τ = i.valueAt τ.time := hseg τ le_rfl hτm
  have hmono : ∀ σ, τ ≤ σ → σ ≤ m → X σ ≤ X τ := by
    intro σ h1 h2
    rw [hseg σ h1 h2, hτ]
    have := Pt.time_le h1
    simp only [Sample.valueAt]
    have := mul_le_mul_of_nonpos_left (sub_le_sub_right this i.time) hd
    linarith
  constructor
  · rcases le_or_gt zmax (i.valueAt τ.time) with h | h
    · exact ⟨τ, le_rfl, hτm.trans hmU, by rw [hτ, hw, max_eq_right h]⟩
    · obtain ⟨σ, h1, h2, h3⟩ := hatt
      rcases eq_or_lt_of_le h1 with rfl | h1
      · have := hmono _ hτm le_rfl
        rw [hτ] at this
        exact absurd (h3.trans this) (not_le.2 h)
      · exact ⟨σ, hτm.trans h1.le, h2, by
          rw [hw, max_eq_left h.le]; exact le_antisymm (hub σ h1 h2) h3⟩
  · intro σ h1 h2
    rw [hw]
    rcases le_or_gt σ m with h3 | h3
    · refine le_trans (hmono σ h1 h3) ?_
      rw [hτ]; exact le_max_right _ _
    · exact (hub σ h3 h2).trans (le_max_left _ _)

/-- The result of one step of the scan on a piece `i`, whether it is the last one or not:
`zf` is the new list (pending piece pushed) and `zm` the new running maximum. -/
theorem ev_step {Q : Prop} {X : Pt → ℚ} {U m : Pt} {z : List Sample} {zmax t : ℚ} {c : Bool} {i : Sample}
    (h : EvJ Q X U m (pend t c zmax z) zmax) (hmt : m.time = t) (hmU : m ≤ U)
    (him : mi i.time ≤ m)
    (hseg : ∀ σ, pl i.time ≤ σ → σ ≤ m → X σ = i.valueAt σ.time)
    (hg : m < pl i.time → i.value ≤ max (X (mi i.time)) (X (pl i.time)) ∧ pl i.time ≤ U)
    (hcg : Q → m < pl i.time → X (mi i.time) = i.value ∧ X (pl i.time) = i.value) :
    (0 ≤ i.derivative → zmax < i.valueAt t →
      EvJ Q X U (mi i.time) (⟨i.time, i.valueAt t, 0⟩ :: pend t c zmax z) (i.valueAt t)) ∧
    (0 ≤ i.derivative → ¬ zmax < i.valueAt t →
      EvJ Q X U (mi i.time) (⟨i.time, zmax, 0⟩ :: z) zmax) ∧
    (i.derivative < 0 → zmax ≤ i.valueAt t →
      EvJ Q X U (mi i.time) (i :: pend t c zmax z) i.value) ∧
    (i.derivative < 0 → ¬ zmax ≤ i.valueAt t → i.value ≤ zmax →
      EvJ Q X U (mi i.time) (⟨i.time, zmax, 0⟩ :: z) zmax) ∧
    (i.derivative < 0 → ¬ zmax ≤ i.valueAt t → ¬ i.value ≤ zmax →
      EvJ Q X U (mi i.time)
        (i :: ⟨i.time + (zmax - i.value) / i.derivative, zmax, 0⟩ :: z) i.value) := by
  have hit : i.time ≤ t := by rw [← hmt]; exact Pt.time_le him
  -- the piece is not empty, or it is a zero-length sample at `t`
  rcases le_or_gt (pl i.time) m with hne | hgh
  · have hseg' : ∀ τ, pl i.time ≤ τ → ∀ σ, τ ≤ σ → σ ≤ m → X σ = i.valueAt σ.time :=
      fun τ h1 σ h2 h3 => hseg σ (h1.trans h2) h3
    have hXm : X m = i.valueAt t := by rw [hseg m hne le_rfl, hmt]
    have hXi : X (pl i.time) = i.value := by
      rw [hseg _ le_rfl hne]; simp [Sample.valueAt]
    refine ⟨?_, ?_, ?_, ?_, ?_⟩
    · intro hd hlt
      refine h.push (p := ⟨i.time, i.valueAt t, 0⟩) him hmU ?_ hlt.le ?_
        ⟨m, him, hmU, hXm.ge⟩ (fun _ hh => absurd hne (not_le.2 hh))
      · intro τ h1 h2
        refine top_rising h.hub h.hatt hmU h2 (hseg' τ h1) hd ?_
        rw [hmt, max_eq_right hlt.le]; simp [Sample.valueAt]
      · intro τ h1 h2
        rw [hseg τ h1 h2]
        have := Pt.time_le h2
        rw [hmt] at this
        simp only [Sample.valueAt]
        have := mul_le_mul_of_nonneg_left (sub_le_sub_right this i.time) hd
        linarith
    · intro hd hlt
      refine h.flat him hmU ?_ (fun _ hh => absurd hne (not_le.2 hh))
      intro τ h1 h2
      refine top_rising h.hub h.hatt hmU h2 (hseg' τ h1) hd ?_
      rw [hmt, max_eq_left (not_lt.1 hlt)]
    · intro hd hle
      have hmono : ∀ τ : Pt, τ ≤ m → i.valueAt t ≤ i.valueAt τ.time := by
        intro τ h2
        have := Pt.time_le h2
        rw [hmt] at this
        simp only [Sample.valueAt]
        have := mul_le_mul_of_nonpos_left (sub_le_sub_right this i.time) hd.le
        linarith
      refine h.push him hmU ?_ ?_ ?_ ⟨pl i.time, by simp, hne.trans hmU, hXi.ge⟩
        (fun _ hh => absurd hne (not_le.2 hh))
      · intro τ h1 h2
        refine top_falling h.hub h.hatt hmU h2 (hseg' τ h1) hd.le ?_
        rw [max_eq_right (hle.trans (hmono τ h2))]
      · have := hmono (pl i.time) hne
        simp only [pl, valueAt_self] at this
        exact hle.trans this
      · intro τ h1 h2
        rw [hseg τ h1 h2]
        have := pl_le_iff h1
        simp only [Sample.valueAt]
        have := mul_nonpos_of_nonpos_of_nonneg hd.le (sub_nonneg.2 this)
        linarith
    · intro hd _ hle
      refine h.flat him hmU ?_ (fun _ hh => absurd hne (not_le.2 hh))
      intro τ h1 h2
      refine top_falling h.hub h.hatt hmU h2 (hseg' τ h1) hd.le ?_
      rw [max_eq_left]
      have := pl_le_iff h1
      simp only [Sample.valueAt]
      have := mul_nonpos_of_nonpos_of_nonneg hd.le (sub_nonneg.2 this)
      linarith
    · intro hd hnt hni
      set q := i.time + (zmax - i.value) / i.derivative with hq
      have hvq : ∀ r, i.valueAt r = zmax + i.derivative * (r - q) := by
        intro r
        have hd0 : i.derivative ≠ 0 := hd.ne
        rw [hq]
        simp only [Sample.valueAt]
        field_simp
        ring
      have hiq : i.time < q := by
        rw [hq]
        have : 0 < (zmax - i.value) / i.derivative :=
          div_pos_of_neg_of_neg (by linarith [not_le.1 hni]) hd
        linarith
      have hqt : q < t := by
        by_contra hcon
        have := hvq t
        have := mul_nonneg_of_nonpos_of_nonpos hd.le (sub_nonpos.2 (not_lt.1 hcon))
        exact hnt (by linarith)
      have hqm : mi q ≤ m := by
        rw [mi_le_iff, hmt]; exact hqt.le
      have h1 : EvJ Q X U (mi q) (⟨q, zmax, 0⟩ :: z) zmax := by
        refine h.flat hqm hmU ?_
          (fun _ hh => absurd hh (not_lt.2 (by
            rw [Pt.le_iff]; left; simpa [pl, hmt] using hqt)))
        intro τ h1 h2
        have hτi : pl i.time ≤ τ := le_trans (by simpa using hiq.le) h1
        refine top_falling h.hub h.hatt hmU h2 (hseg' τ hτi) hd.le ?_
        rw [max_eq_left, ]
        rw [hvq]
        have := mul_nonpos_of_nonpos_of_nonneg hd.le (sub_nonneg.2 (pl_le_iff h1))
        linarith
      refine h1.push (by simpa using hiq.le) (hqm.trans hmU) ?_ (not_le.1 hni).le ?_
        ⟨pl i.time, by simp, hne.trans hmU, hXi.ge⟩
        (fun _ hh => absurd hh (by simpa using hiq))
      · intro τ h2 h3
        refine top_falling h1.hub h1.hatt (hqm.trans hmU) h3
          (fun σ a b => hseg σ (h2.trans a) (b.trans hqm)) hd.le ?_
        rw [max_eq_right]
        rw [hvq]
        have := mul_nonneg_of_nonpos_of_nonpos hd.le (sub_nonpos.2 (le_mi_iff h3))
        linarith
      · intro τ h2 h3
        rw [hseg τ h2 (h3.trans hqm)]
        have := pl_le_iff h2
        simp only [Sample.valueAt]
        have := mul_nonpos_of_nonpos_of_nonneg hd.le (sub_nonneg.2 this)
        linarith
  · -- zero-length sample
    have hm : m = mi i.time := by
      refine le_antisymm ?_ him
      rw [← not_lt, mi_lt_iff, not_le]; exact hgh
    have hti : t = i.time := by rw [← hmt, hm]; rfl
    obtain ⟨hgv, hiU⟩ := hg hgh
    have hvt : i.valueAt t = i.value := by rw [hti, valueAt_self]
    have hpub : X (pl i.time) ≤ zmax := h.hub _ hgh hiU
    have hvac : ∀ {P : Pt → Prop}, ∀ τ, pl i.time ≤ τ → τ ≤ m → P τ :=
      fun τ h1 h2 => absurd (lt_of_le_of_lt h2 hgh) (not_lt.2 h1)
    have hatt : zmax ≤ i.value → ∃ σ, mi i.time ≤ σ ∧ σ ≤ U ∧ i.value ≤ X σ := by
      intro _
      rcases le_max_iff.1 hgv with h1 | h1
      · exact ⟨mi i.time, le_rfl, hm ▸ hmU, h1⟩
      · exact ⟨pl i.time, by simp, hiU, h1⟩
    have htz : Q → m < pl i.time → Top X (pl i.time) U zmax := by
      intro hQ _
      obtain ⟨h1, h2⟩ := hcg hQ hgh
      refine ⟨?_, fun σ a b => h.hub σ (lt_of_lt_of_le hgh a) b⟩
      obtain ⟨σ, a, b, c'⟩ := h.hatt
      rcases eq_or_lt_of_le a with rfl | a
      · refine ⟨pl i.time, le_rfl, hiU, le_antisymm hpub ?_⟩
        rw [hm, h1] at c'; rw [h2]; exact c'
      · refine ⟨σ, ?_, b, le_antisymm (h.hub σ a b) c'⟩
        rw [hm, mi_lt_iff] at a; exact a
    have hti : zmax ≤ i.value → Q → m < pl i.time → Top X (pl i.time) U i.value := by
      intro hle hQ hh
      have : i.value = zmax := le_antisymm ((hcg hQ hgh).2 ▸ hpub) hle
      rw [this]; exact htz hQ hh
    refine ⟨?_, ?_, ?_, ?_, ?_⟩
    · intro _ hlt
      rw [hvt] at hlt ⊢
      exact h.push (p := ⟨i.time, i.value, 0⟩) him hmU hvac hlt.le hvac (hatt hlt.le)
        (hti hlt.le)
    · intro _ _
      exact h.flat him hmU hvac htz
    · intro _ hle
      rw [hvt] at hle
      exact h.push him hmU hvac hle hvac (hatt hle) (hti hle)
    · intro _ _ _
      exact h.flat him hmU hvac htz
    · intro _ h1 h2
      rw [hvt] at h1
      exact absurd (not_le.1 h2).le h1

/-- The whole scan. -/
theorem partialEventually_spec {Q : Prop} {X : Pt → ℚ} {U : Pt} {s : ℚ} :
    ∀ (is : List Sample) (z : List Sample) (t : ℚ) (c : Bool) (zmax : ℚ) (m : Pt),
      EvJ Q X U m (pend t c zmax z) zmax → m.time = t → m ≤ U → pl s ≤ m →
      RSorted is → (∀ p ∈ is, mi p.time ≤ m) →
      (∃ p ∈ is, p.time = s) → (∀ p ∈ is, s ≤ p.time) →
      (∀ τ, pl s ≤ τ → τ ≤ m → valR is τ = some (X τ)) →
      (∀ p ∈ is, s < p.time → p.value ≤ max (X (mi p.time)) (X (pl p.time)) ∧ pl p.time ≤ U) →
      (Q → ∀ p ∈ is, s < p.time → X (mi p.time) = p.value ∧ X (pl p.time) = p.value) →
      ∃ z' is', partialEventually s z is t c zmax = .ok (z', is') ∧
        (∃ zm, EvJ Q X U (mi s) z' zm) ∧ (∃ p r, z' = p :: r ∧ p.time = s ∧ ∀ q ∈ r, s < q.time)
  | [], z, t, c, zmax, m => by simp
  | i :: is, z, t, c, zmax, m => by
    intro hJ hmt hmU hsm hr him hex hfrom hval hg hcg
    have hseg : ∀ σ, pl i.time ≤ σ → σ ≤ m → X σ = i.valueAt σ.time := by
      intro σ h1 h2
      have hs : pl s ≤ σ := le_trans (by simpa using hfrom i (by simp)) h1
      have := hval σ hs h2
      rw [valR_cons_of_le h1] at this
      simpa using this.symm
    have himm := him i (by simp)
    by_cases hsi : s < i.time
    · obtain ⟨hA, hB, hC, hD, hE⟩ := ev_step hJ hmt hmU himm hseg
        (fun _ => hg i (by simp) hsi) (fun hQ _ => hcg hQ i (by simp) hsi)
      have hr' := (List.pairwise_cons.1 hr)
      have hnext : ∀ z' c' zmax', EvJ Q X U (mi i.time) (pend i.time c' zmax' z') zmax' →
          ∃ z'' is'', partialEventually s z' is i.time c' zmax' = .ok (z'', is'') ∧
            (∃ zm, EvJ Q X U (mi s) z'' zm) ∧
            (∃ p r, z'' = p :: r ∧ p.time = s ∧ ∀ q ∈ r, s < q.time) := by
        intro z' c' zmax' hJ'
        refine partialEventually_spec is z' i.time c' zmax' (mi i.time) hJ' rfl
          (himm.trans hmU) (by simpa using hsi) hr'.2 ?_ ?_ ?_ ?_ ?_ ?_
        · intro p hp; simpa using hr'.1 p hp
        · obtain ⟨p, hp, hps⟩ := hex
          rcases List.mem_cons.1 hp with rfl | hp
          · exact absurd hps hsi.ne'
          · exact ⟨p, hp, hps⟩
        · intro p hp; exact hfrom p (by simp [hp])
        · intro τ h1 h2
          rw [← hval τ h1 (h2.trans himm), valR_cons_of_lt]
          exact lt_of_le_of_lt h2 (by simp)
        · intro p hp; exact hg p (by simp [hp])
        · intro hQ p hp; exact hcg hQ p (by simp [hp])
      rw [partialEventually.eq_def]
      simp only [if_pos hsi, pend_eq]
      split_ifs with h1 h2 h3 h4
      · exact hnext _ true _ (hA h1 h2)
      · exact hnext _ true _ (hB h1 h2)
      · exact hnext _ false _ (hC (not_le.1 h1) h3)
      · exact hnext _ true _ (hD (not_le.1 h1) h3 h4)
      · simp only [qdiv, (not_le.1 h1).ne, if_false, bind, Except.bind]
        exact hnext _ false _ (hE (not_le.1 h1) h3 h4)
    · have hsi' : i.time = s := le_antisymm (not_lt.1 hsi) (hfrom i (by simp))
      subst hsi'
      obtain ⟨hA, hB, hC, hD, hE⟩ := ev_step hJ hmt hmU himm hseg
        (fun h => absurd hsm (not_le.2 h)) (fun _ h => absurd hsm (not_le.2 h))
      have hst : ∀ q ∈ pend t c zmax z, i.time < q.time := by
        intro q hq
        have := lt_of_le_of_lt hsm (hJ.hz q hq)
        simpa using this
      have hst' : ∀ q ∈ z, i.time < q.time := by
        intro q hq
        refine hst q ?_
        unfold pend; split_ifs <;> simp [hq]
      rw [partialEventually.eq_def]
      simp only [if_neg hsi, valueAt_self, pend_eq]
      split_ifs with h1 h2 h3 h4
      · exact ⟨_, _, rfl, ⟨_, hA h1 h2⟩, _, _, rfl, rfl, hst⟩
      · exact ⟨_, _, rfl, ⟨_, hB h1 h2⟩, _, _, rfl, rfl, hst'⟩
      · exact ⟨_, _, rfl, ⟨_, hC (not_le.1 h1) h3⟩, _, _, rfl, rfl, hst⟩
      · exact ⟨_, _, rfl, ⟨_, hD (not_le.1 h1) h3 h4⟩, _, _, rfl, rfl, hst'⟩
      · simp only [qdiv, (not_le.1 h1).ne, if_false, bind, Except.bind]
        refine ⟨_, _, rfl, ⟨_, hE (not_le.1 h1) h3 h4⟩, _, _, rfl, rfl, ?_⟩
        intro q hq
        rcases List.mem_cons.1 hq with rfl | hq
        · have : 0 < (zmax - i.value) / i.derivative :=
            div_pos_of_neg_of_neg (by linarith [not_le.1 h4]) (not_le.1 h1)
          simpa using this
        · exact hst' q hq

/-- A continuous signal all of whose samples, zero-length ones included, lie on its graph. -/
structure CG (x : Signal) : Prop where
  cts : ∀ t, x.beginTime < t → t ≤ x.endTime → x.v (mi t) = x.v (pl t)
  vc : ∀ p ∈ x.samples, p.value = x.v (pl p.time)

theorem CG.gc {x : Signal} (h : CG x) : GC x := by
  intro p hp _
  rw [← h.vc p hp]
  exact ⟨min_le_right _ _, le_max_right _ _⟩

/-- In a list with strictly increasing times, the value at a sample's time is the sample's. -/
theorem SInc.val_self {l : List Sample} (h : SInc l) : ∀ p ∈ l, val l (pl p.time) = some p.value := by
  induction l with
  | nil => simp
  | cons q l ih =>
    intro p hp
    have h' := List.pairwise_cons.1 h
    rcases List.mem_cons.1 hp with rfl | hp
    · rw [val_cons_of_lt]
      · simp [pl, valueAt_self]
      · intro r hr; simpa using h'.1 r hr
      · exact le_rfl
    · exact val_cons_of_some (ih h'.2 p hp)

theorem SInc.gc {x : Signal} (h : SInc x.samples) : GC x := by
  intro p hp _
  have : x.v (pl p.time) = p.value := Signal.v_of_val (h.val_self p hp)
  rw [this]
  exact ⟨min_le_right _ _, le_max_right _ _⟩

theorem Top.cts {X : Pt → ℚ} {U : Pt} {t v : ℚ} (h : Top X (pl t) U v) (hc : X (mi t) = X (pl t))
    (hU : pl t ≤ U) : Top X (mi t) U v := by
  refine ⟨?_, ?_⟩
  · obtain ⟨σ, a, b, c⟩ := h.1
    exact ⟨σ, le_trans (by simp) a, b, c⟩
  · intro σ a b
    rcases eq_or_lt_of_le a with rfl | a
    · rw [hc]; exact h.2 _ le_rfl hU
    · exact h.2 σ (by rwa [mi_lt_iff] at a) b

/-- The untimed `eventually`: at every point the result is the greatest value of the operand
from that point to the end. -/
theorem computeEventually_spec {x : Signal} {B : ℚ} (hx : WF0 x) (hg : GC x)
    (hB : -B ≤ x.v (pl x.endTime)) :
    ∃ z, computeEventually B x = .ok z ∧ z.beginTime = x.beginTime ∧ z.endTime = x.endTime ∧
      WF z ∧ (∀ τ, pl x.beginTime ≤ τ → τ ≤ pl x.endTime →
        Top x.v τ (pl x.endTime) (z.v τ)) ∧ (CG x → CG z) := by
  obtain ⟨p0, l0, hl0, hp0⟩ := hx.exists_cons
  have hbe := hx.begin_le_end
  obtain ⟨z, is', hz, ⟨zm, hJ⟩, p, r, hpr, hp, hr⟩ :=
    partialEventually_spec (Q := CG x) (X := x.v) (U := pl x.endTime) (s := x.beginTime)
      x.samples.reverse [] x.endTime false (-B) (pl x.endTime)
      ⟨fun σ h1 h2 => absurd h1 (not_lt.2 h2), ⟨_, le_rfl, le_rfl, hB⟩, by simp [pend],
        by simp [pend, Sorted], by simp [pend], fun τ h1 h2 => absurd h1 (not_lt.2 h2),
        by simp [pend]⟩
      rfl le_rfl (by simpa using hbe)
      (by have := hx.sorted; simpa [RSorted, Sorted, List.pairwise_reverse] using this)
      (by
        intro q hq
        have := hx.le_end q (by simpa using hq)
        rw [mi_le_iff]; exact this)
      ⟨p0, by simp [hl0], hp0⟩
      (by
        intro q hq
        have hs := hx.sorted
        rw [hl0] at hs
        rcases List.mem_cons.1 (show q ∈ p0 :: l0 by rw [← hl0]; simpa using hq) with rfl | h
        · exact hp0.ge
        · rw [← hp0]; exact (List.pairwise_cons.1 hs).1 q h)
      (by
        intro τ h1 _
        rw [← val_eq_valR]; exact hx.val h1)
      (by
        intro q hq hqb
        have hq' : q ∈ x.samples := by simpa using hq
        exact ⟨(hg q hq' hqb).2, by simpa using hx.le_end q hq'⟩)
      (by
        intro hc q hq hqb
        have hq' : q ∈ x.samples := by simpa using hq
        have := hc.vc q hq'
        exact ⟨by rw [hc.cts _ hqb (hx.le_end q hq'), this], this.symm⟩)
  have hzv : ∀ τ, pl x.beginTime ≤ τ → τ ≤ pl x.endTime →
      Top x.v τ (pl x.endTime) ((⟨z, x.beginTime, x.endTime⟩ : Signal).v τ) := by
    intro τ h1 h2
    obtain ⟨v, hv, ht⟩ := hJ.val τ (by rwa [mi_lt_iff]) h2
    rw [Signal.v_of_val hv]; exact ht
  refine ⟨⟨z, x.beginTime, x.endTime⟩, ?_, rfl, rfl, ⟨⟨?_, ?_, hJ.sorted, hJ.le_end⟩, ?_⟩,
    hzv, ?_⟩
  · simp [computeEventually, hz, bind, Except.bind]
  · simp [hpr]
  · simp [hpr, hp]
  · simpa [hpr] using hr
  · intro hc
    have hvc : ∀ q ∈ z, q.value = (⟨z, x.beginTime, x.endTime⟩ : Signal).v (pl q.time) := by
      intro q hq
      have h1 : x.beginTime ≤ q.time := by simpa using hJ.hz q hq
      exact (hJ.vc hc q hq).unique
        (hzv _ (by simpa using h1) (by simpa using hJ.le_end q hq))
    refine ⟨?_, hvc⟩
    intro t h1 h2
    have h1' : x.beginTime < t := h1
    have h2' : t ≤ x.endTime := h2
    exact (hzv (mi t) (by simpa using h1') (by simpa [le_pl_iff] using h2')).unique
      ((hzv (pl t) (by simpa using h1'.le) (by simpa using h2')).cts (hc.cts t h1' h2')
        (by simpa using h2'))

/-- `v` is the least value of `X` between the points `τ` and `U`. -/
def Bot (X : Pt → ℚ) (τ U : Pt) (v : ℚ) : Prop :=
  (∃ σ, τ ≤ σ ∧ σ ≤ U ∧ X σ = v) ∧ ∀ σ, τ ≤ σ → σ ≤ U → v ≤ X σ

theorem top_neg {X : Pt → ℚ} {τ U : Pt} {v : ℚ} :
    Top (fun σ => -X σ) τ U (-v) ↔ Bot X τ U v := by
  simp [Top, Bot]

theorem CG.not {x : Signal} (h : CG x) : CG (computeNot x) := by
  refine ⟨fun t h1 h2 => ?_, fun p hp => ?_⟩
  · rw [v_not, v_not, h.cts t h1 h2]
  · rw [computeNot_samples] at hp
    obtain ⟨q, hq, rfl⟩ := List.mem_map.1 hp
    rw [v_not]
    exact congrArg Neg.neg (h.vc q hq)

theorem between_neg {a b c : ℚ} (h : Between a b c) : Between (-a) (-b) (-c) := by
  obtain ⟨h1, h2⟩ := h
  constructor
  · rw [min_neg_neg]; linarith
  · rw [max_neg_neg]; linarith

theorem GC.not {x : Signal} (h : GC x) : GC (computeNot x) := by
  intro p hp hb
  rw [computeNot_samples] at hp
  obtain ⟨q, hq, rfl⟩ := List.mem_map.1 hp
  rw [v_not, v_not]
  exact between_neg (h q hq hb)

/-- The untimed `globally`. -/
theorem computeGlobally_spec {x : Signal} {B : ℚ} (hx : WF0 x) (hg : GC x)
    (hB : x.v (pl x.endTime) ≤ B) :
    ∃ z, computeGlobally B x = .ok z ∧ z.beginTime = x.beginTime ∧ z.endTime = x.endTime ∧
      WF z ∧ (∀ τ, pl x.beginTime ≤ τ → τ ≤ pl x.endTime →
        Bot x.v τ (pl x.endTime) (z.v τ)) ∧ (CG x → CG z) := by
  obtain ⟨z, h1, h2, h3, h4, h5, h6⟩ := computeEventually_spec (B := B) hx.not hg.not
    (by rw [v_not]; exact neg_le_neg hB)
  refine ⟨computeNot z, ?_, h2, h3, h4.not, ?_, fun hc => (h6 hc.not).not⟩
  · simp [computeGlobally, h1, bind, Except.bind]
  · intro τ a b
    have := h5 τ a b
    rw [v_not, ← top_neg, neg_neg]
    have e : (computeNot x).v = fun σ => -x.v σ := by funext σ; exact v_not x σ
    rw [e] at this
    exact this

end STLRom
