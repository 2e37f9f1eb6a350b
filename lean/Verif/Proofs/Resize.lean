import Verif.Proofs.Append

/-!
# `resize` and `shift`
-/

namespace STLRom
open Signal

/-! ## shift -/

/-- A point moved in time. -/
def Pt.shift (τ : Pt) (a : ℚ) : Pt := ⟨τ.time + a, τ.right⟩

@[simp] theorem Pt.shift_time (τ : Pt) (a : ℚ) : (τ.shift a).time = τ.time + a := rfl
@[simp] theorem pl_shift (t a : ℚ) : (pl t).shift a = pl (t + a) := rfl
@[simp] theorem mi_shift (t a : ℚ) : (mi t).shift a = mi (t + a) := rfl
theorem Pt.shift_shift (τ : Pt) (a b : ℚ) : (τ.shift a).shift b = τ.shift (a + b) := by
  simp [Pt.shift, add_assoc]
@[simp] theorem Pt.shift_zero (τ : Pt) : τ.shift 0 = τ := by simp [Pt.shift]
@[simp] theorem Pt.shift_neg (τ : Pt) (a : ℚ) : (τ.shift a).shift (-a) = τ := by
  simp [Pt.shift_shift]
@[simp] theorem Pt.shift_neg' (τ : Pt) (a : ℚ) : (τ.shift (-a)).shift a = τ := by
  simp [Pt.shift_shift]

@[simp] theorem Pt.shift_le_shift {σ τ : Pt} {a : ℚ} : σ.shift a ≤ τ.shift a ↔ σ ≤ τ := by
  rw [Pt.le_iff, Pt.le_iff]; simp [Pt.shift]

@[simp] theorem Pt.shift_lt_shift {σ τ : Pt} {a : ℚ} : σ.shift a < τ.shift a ↔ σ < τ := by
  rw [← not_le, ← not_le, Pt.shift_le_shift]

theorem Pt.le_shift {τ : Pt} {a : ℚ} (h : 0 ≤ a) : τ ≤ τ.shift a := by
  rw [Pt.le_iff]
  rcases h.lt_or_eq with h | h
  · left; simpa using h
  · right; subst h; simp

theorem Pt.shift_le_iff {σ τ : Pt} {a : ℚ} : σ.shift a ≤ τ ↔ σ ≤ τ.shift (-a) := by
  rw [← Pt.shift_le_shift (a := -a) (σ := σ.shift a), Pt.shift_neg]

theorem Pt.le_shift_iff {σ τ : Pt} {a : ℚ} : σ ≤ τ.shift a ↔ σ.shift (-a) ≤ τ := by
  rw [Pt.shift_le_iff, neg_neg]

theorem cur_shift (l : List Sample) (a : ℚ) (τ : Pt) :
    cur (l.map fun p => ⟨p.time + a, p.value, p.derivative⟩) (τ.shift a) =
      (cur l τ).map fun p => ⟨p.time + a, p.value, p.derivative⟩ := by
  induction l with
  | nil => rfl
  | cons p l ih =>
    have hp : pl (p.time + a) ≤ τ.shift a ↔ pl p.time ≤ τ := by
      rw [← pl_shift, Pt.shift_le_shift]
    simp only [List.map_cons, cur, ih, hp]
    cases cur l τ with
    | none => by_cases h : pl p.time ≤ τ <;> simp [h]
    | some q => simp

theorem val_shift (x : Signal) (a : ℚ) (τ : Pt) :
    val (x.shift a).samples (τ.shift a) = val x.samples τ := by
  simp only [Signal.shift, val, cur_shift, Option.map_map]
  congr 1
  funext p
  simp [Sample.valueAt]

theorem v_shift (x : Signal) (a : ℚ) (τ : Pt) : (x.shift a).v τ = x.v (τ.shift (-a)) := by
  have := val_shift x a (τ.shift (-a))
  rw [Pt.shift_neg'] at this
  simp only [Signal.v, this]

theorem WF0.shift {x : Signal} (h : WF0 x) (a : ℚ) : WF0 (x.shift a) := by
  obtain ⟨p, l, hx, hp⟩ := h.exists_cons
  refine ⟨by simp [Signal.shift, hx], ?_, ?_, ?_⟩
  · intro q hq
    simp [Signal.shift, hx] at hq
    simp [← hq, hp, Signal.shift]
  · exact List.pairwise_map.2 (h.sorted.imp fun h => by simpa using h)
  · intro q hq
    simp only [Signal.shift, List.mem_map] at hq
    obtain ⟨r, hr, rfl⟩ := hq
    simpa [Signal.shift] using h.le_end r hr

theorem WF.shift {x : Signal} (h : WF x) (a : ℚ) : WF (x.shift a) := by
  refine ⟨h.toWF0.shift a, ?_⟩
  intro q hq
  simp only [Signal.shift, ← List.map_tail, List.mem_map] at hq
  obtain ⟨r, hr, rfl⟩ := hq
  simpa [Signal.shift] using h.strict r hr

/-! ## resize -/

theorem trimFront_spec (s : ℚ) : ∀ (l : List Sample) (f : Sample), Sorted l →
    ∃ pre rest, l = pre ++ rest ∧ (∀ p ∈ pre, p.time < s) ∧ (∀ p ∈ rest, s ≤ p.time) ∧
      trimFront s f l = ((pre.getLast?).getD f, rest) := by
  intro l
  induction l with
  | nil => intro f _; exact ⟨[], [], rfl, by simp, by simp, rfl⟩
  | cons p l ih =>
    intro f hs
    have hs' := List.pairwise_cons.1 hs
    by_cases h : p.time < s
    · obtain ⟨pre, rest, h1, h2, h3, h4⟩ := ih p hs'.2
      refine ⟨p :: pre, rest, by simp [h1], ?_, h3, ?_⟩
      · intro q hq
        rcases List.mem_cons.1 hq with rfl | hq
        · exact h
        · exact h2 q hq
      · rw [trimFront, if_pos h, h4]
        cases pre with
        | nil => simp
        | cons q pre => rw [List.getLast?_cons_cons]; simp [List.getLast?_eq_some_getLast]
    · refine ⟨[], p :: l, rfl, by simp, ?_, by simp [trimFront, h]⟩
      intro q hq
      rcases List.mem_cons.1 hq with rfl | hq
      · exact not_lt.1 h
      · exact (not_lt.1 h).trans (hs'.1 q hq)

theorem trimBack_spec (t : ℚ) (l : List Sample) (hs : Sorted l) :
    (trimBack t l).Sublist l ∧ (∀ p ∈ trimBack t l, p.time ≤ t) ∧
      (∀ p ∈ l, p.time ≤ t → p ∈ trimBack t l) ∧
      (trimBack t l) <+: l ∧
      ∀ τ, τ ≤ pl t → val (trimBack t l) τ = val l τ := by
  have h : ∀ r : List Sample, r.Pairwise (fun p q => q.time ≤ p.time) →
      ∃ pre, r = pre ++ r.dropWhile (fun p => decide (t < p.time)) ∧ (∀ p ∈ pre, t < p.time) ∧
        ∀ p ∈ r.dropWhile (fun p => decide (t < p.time)), p.time ≤ t := by
    intro r
    induction r with
    | nil => intro _; exact ⟨[], by simp, by simp, by simp⟩
    | cons p r ih =>
      intro hr
      have hr' := List.pairwise_cons.1 hr
      by_cases hp : t < p.time
      · obtain ⟨pre, h1, h2, h3⟩ := ih hr'.2
        refine ⟨p :: pre, ?_, ?_, ?_⟩
        · rw [List.dropWhile_cons_of_pos (by simpa using hp), List.cons_append, ← h1]
        · intro q hq
          rcases List.mem_cons.1 hq with rfl | hq
          · exact hp
          · exact h2 q hq
        · rw [List.dropWhile_cons_of_pos (by simpa using hp)]; exact h3
      · rw [List.dropWhile_cons_of_neg (by simpa using hp)]
        refine ⟨[], by simp, by simp, ?_⟩
        intro q hq
        rcases List.mem_cons.1 hq with rfl | hq
        · exact not_lt.1 hp
        · exact (hr'.1 q hq).trans (not_lt.1 hp)
  obtain ⟨pre, h1, h2, h3⟩ := h l.reverse (by
    rw [List.pairwise_reverse]; exact hs)
  have hl : l = trimBack t l ++ pre.reverse := by
    unfold trimBack
    have := congrArg List.reverse h1
    simpa using this
  refine ⟨?_, ?_, ?_, ⟨_, hl.symm⟩, ?_⟩
  · conv_rhs => rw [hl]
    exact List.sublist_append_left _ _
  · intro p hp
    unfold trimBack at hp
    exact h3 p (by simpa using hp)
  · intro p hp hpt
    rw [hl] at hp
    rcases List.mem_append.1 hp with hp | hp
    · exact hp
    · exact absurd hpt (not_le.2 (h2 p (by simpa using hp)))
  · intro τ hτ
    conv_rhs => rw [hl]
    have hn : cur pre.reverse τ = none := by
      rw [cur_eq_none]
      intro p hp
      exact lt_of_le_of_lt hτ (by simpa using h2 p (by simpa using hp))
    simp only [val, cur_append, hn, Option.none_or]

/-- Strictly increasing times. -/
def SInc (l : List Sample) : Prop := l.Pairwise fun p q => p.time < q.time

theorem SInc.sorted {l : List Sample} (h : SInc l) : Sorted l := h.imp fun h => h.le

/-- What `resizeFront` leaves in the signal, when it starts at or before `s`. -/
def frontList (s : ℚ) (l : List Sample) : List Sample :=
  match trimFront s Sample.zero l with
  | (first, []) => [⟨s, first.valueAt s, 0⟩]
  | (first, p :: r) => if s < p.time then ⟨s, first.valueAt s, first.derivative⟩ :: p :: r
      else p :: r

theorem resizeFront_eq {x : Signal} {s : ℚ} (h : x.beginTime ≤ s) (he : s ≤ x.endTime) :
    resizeFront x s = .ok ⟨frontList s x.samples, x.beginTime, x.endTime⟩ := by
  unfold resizeFront frontList
  rw [if_neg (not_lt.2 h)]
  rcases trimFront s Sample.zero x.samples with ⟨f, _ | ⟨p, l⟩⟩
  · simp [not_lt.2 he]
  · simp only; split_ifs <;> rfl

theorem front_spec {l : List Sample} {p0 : Sample} {r0 : List Sample} {s : ℚ} (hl : l = p0 :: r0)
    (hs : Sorted l) (h0 : p0.time ≤ s)
    (hcl : p0.time = s ∨ (∃ p ∈ l, s ≤ p.time) ∨ ∀ p, l.getLast? = some p → p.derivative = 0) :
    ∃ q r, frontList s l = q :: r ∧ q.time = s ∧ Sorted (q :: r) ∧
      (∀ τ, pl s ≤ τ → val (q :: r) τ = val l τ) ∧ (SInc l → SInc (q :: r)) ∧
      (p0.time = s → q :: r = l) ∧ (∀ p ∈ r, p ∈ l) ∧
      (q ∈ l ∨ ∃ f ∈ l, f.time < s ∧ q.value = f.valueAt s ∧ q.derivative = f.derivative) ∧
      (∀ p ∈ l, s < p.time → p ∈ r) ∧ (q ∈ l ∨ ∀ p ∈ r, s < p.time) := by
  unfold frontList
  obtain ⟨pre, rest, h1, h2, h3, h4⟩ := trimFront_spec s l Sample.zero hs
  rw [h4]
  have hval : ∀ τ, pl s ≤ τ → ∀ f, pre.getLast? = some f → cur pre τ = some f := by
    intro τ hτ f hf
    refine val_append_last hf (le_trans ?_ hτ)
    simpa using (h2 f (List.mem_of_getLast? hf)).le
  rcases hpre : pre.getLast? with _ | f
  · -- nothing popped
    rw [List.getLast?_eq_none_iff] at hpre
    subst hpre
    simp only [List.nil_append] at h1
    subst h1
    have hp0 : p0.time = s := le_antisymm h0 (h3 p0 (by simp [hl]))
    refine ⟨p0, r0, ?_, hp0, hl ▸ hs, fun τ _ => by rw [hl], fun h => hl ▸ h, fun _ => hl.symm, ?_,
      ?_⟩
    · simp [hl, hp0]
    · intro p hp; simp [hl, hp]
    · refine ⟨by left; simp [hl], ?_, Or.inl (by simp [hl])⟩
      intro p hp hlt
      rw [hl] at hp
      rcases List.mem_cons.1 hp with rfl | hp
      · exact absurd hp0 hlt.ne'
      · exact hp
  · have hfm : f ∈ pre := List.mem_of_getLast? hpre
    have hne : p0.time ≠ s := by
      intro h
      cases pre with
      | nil => simp at hfm
      | cons a pre =>
        have : a = p0 := by
          rw [hl] at h1; simp at h1; exact h1.1.symm
        have := h2 a (by simp)
        simp_all
    cases rest with
    | nil =>
      simp only [List.append_nil] at h1
      subst h1
      have hf0 : f.derivative = 0 := by
        rcases hcl with h | ⟨p, hp, hp'⟩ | h
        · exact absurd h hne
        · exact absurd hp' (not_le.2 (h2 p hp))
        · exact h f hpre
      refine ⟨⟨s, f.valueAt s, 0⟩, [], by simp, rfl, by simp [Sorted], ?_, by simp [SInc],
        fun h => absurd h hne, by simp, Or.inr ⟨f, hfm, h2 f hfm, rfl, hf0.symm⟩,
        fun p hp hlt => absurd hlt (not_lt.2 (h2 p hp).le), Or.inr (by simp)⟩
      intro τ hτ
      rw [val_cons_of_lt (by simp) hτ]
      simp only [val, hval τ hτ f hpre, Option.map_some, Sample.valueAt, hf0]
      simp
    | cons p rest =>
      have hps : s ≤ p.time := h3 p (by simp)
      have hsr : Sorted (p :: rest) := (List.pairwise_append.1 (h1 ▸ hs)).2.1
      simp only [Option.getD_some]
      by_cases hlt : s < p.time
      · have hrest : ∀ q ∈ p :: rest, s < q.time := by
          intro q hq
          rcases List.mem_cons.1 hq with rfl | hq
          · exact hlt
          · exact hlt.trans_le ((List.pairwise_cons.1 hsr).1 q hq)
        refine ⟨⟨s, f.valueAt s, f.derivative⟩, p :: rest, by simp [hlt], rfl,
          List.pairwise_cons.2 ⟨fun q hq => (hrest q hq).le, hsr⟩, ?_, ?_, fun h => absurd h hne,
          fun q hq => by rw [h1]; simp only [List.mem_append]; exact Or.inr hq,
          Or.inr ⟨f, by rw [h1]; simp [hfm], h2 f hfm, rfl, rfl⟩, ?_, Or.inr hrest⟩
        · intro τ hτ
          rw [h1]
          simp only [val, cur_append]
          rw [show cur (⟨s, f.valueAt s, f.derivative⟩ :: p :: rest) τ =
            (cur (p :: rest) τ).or (if pl s ≤ τ then some ⟨s, f.valueAt s, f.derivative⟩ else none)
            from rfl, if_pos hτ, hval τ hτ f hpre]
          cases cur (p :: rest) τ with
          | none => simp [valueAt_move]
          | some q => simp
        · intro h
          exact List.pairwise_cons.2 ⟨hrest, (List.pairwise_append.1 (h1 ▸ h)).2.1⟩
        · intro a ha hlt
          rw [h1] at ha
          rcases List.mem_append.1 ha with ha | ha
          · exact absurd hlt (not_lt.2 (h2 a ha).le)
          · exact ha
      · have hpe : p.time = s := le_antisymm (not_lt.1 hlt) hps
        refine ⟨p, rest, by simp [hlt], hpe, hsr, ?_, ?_, fun h => absurd h hne,
          fun q hq => by rw [h1]; simp [hq], Or.inl (by rw [h1]; simp), ?_,
          Or.inl (by rw [h1]; simp)⟩
        · intro τ hτ
          rw [h1]
          simp only [val, cur_append]
          have : ∃ r, cur (p :: rest) τ = some r := by
            rcases hc : cur (p :: rest) τ with _ | r
            · rw [cur_eq_none] at hc
              have := hc p (by simp)
              rw [hpe] at this
              exact absurd hτ (not_le.2 this)
            · exact ⟨r, rfl⟩
          obtain ⟨r, hr⟩ := this
          simp [hr]
        · intro h
          exact (List.pairwise_append.1 (h1 ▸ h)).2.1
        · intro a ha hlt'
          rw [h1] at ha
          rcases List.mem_append.1 ha with ha | ha
          · exact absurd hlt' (not_lt.2 (h2 a ha).le)
          · rcases List.mem_cons.1 ha with rfl | ha
            · exact absurd hpe hlt'.ne'
            · exact ha

/-- The side condition under which `resize` to start at `s` keeps the slope. -/
def KeepsSlope (x : Signal) (s : ℚ) : Prop :=
  x.beginTime = s ∨ (∃ p ∈ x.samples, s ≤ p.time) ∨
    ∀ p, x.samples.getLast? = some p → p.derivative = 0

/-- Well formed except that samples after the end time are allowed. -/
structure WFB (x : Signal) : Prop where
  ne : x.samples ≠ []
  head : ∀ p, x.samples.head? = some p → p.time = x.beginTime
  sorted : Sorted x.samples

theorem WF0.wfb {x : Signal} (h : WF0 x) : WFB x := ⟨h.ne, h.head, h.sorted⟩

theorem WFB.exists_cons {x : Signal} (h : WFB x) :
    ∃ p l, x.samples = p :: l ∧ p.time = x.beginTime := by
  rcases hx : x.samples with _ | ⟨p, l⟩
  · exact absurd hx h.ne
  · exact ⟨p, l, rfl, h.head p (by simp [hx])⟩

/-- `resize` to a window inside the domain. -/
theorem resize_inside {x : Signal} {s t : ℚ} (v : ℚ) (hx : WFB x)
    (h0 : x.beginTime ≤ s) (hst : s ≤ t) (hte : t ≤ x.endTime) (hcl : KeepsSlope x s) :
    ∃ z, resize x s t v = .ok z ∧ z.beginTime = s ∧ z.endTime = t ∧ WF0 z ∧
      (∀ τ, pl s ≤ τ → τ ≤ pl t → val z.samples τ = val x.samples τ) ∧
      (SInc x.samples → SInc z.samples) ∧
      (x.beginTime = s → z.samples <+: x.samples) ∧
      (∀ p ∈ z.samples, p ∈ x.samples ∨ p.time = s ∧
        ∃ f ∈ x.samples, f.time < s ∧ p.value = f.valueAt s ∧ p.derivative = f.derivative) ∧
      (∀ p ∈ x.samples, s < p.time → p.time ≤ t → p ∈ z.samples) ∧
      ((∀ p ∈ z.samples, p ∈ x.samples) ∨ WF z) := by
  obtain ⟨p0, r0, hl, hb⟩ := hx.exists_cons
  obtain ⟨q, r, h1, h2, h3, h4, h5, h6, h7, h8, h9, h10⟩ :=
    front_spec hl hx.sorted (hb.le.trans h0) (by rw [hb]; exact hcl)
  obtain ⟨b1, b2, b3, b4, b5⟩ := trimBack_spec t (q :: r) h3
  have hqm : q ∈ trimBack t (q :: r) := b3 q (by simp) (h2.le.trans hst)
  have hne : trimBack t (q :: r) ≠ [] := List.ne_nil_of_mem hqm
  have hhead : ∀ p, (trimBack t (q :: r)).head? = some p → p.time = s := by
    intro p hp
    obtain ⟨suf, hsuf⟩ := b4
    cases ht : trimBack t (q :: r) with
    | nil => exact absurd ht hne
    | cons a m =>
      rw [ht] at hsuf
      simp only [List.cons_append, List.cons.injEq] at hsuf
      simp only [ht, List.head?_cons, Option.some.injEq] at hp
      rw [← hp, hsuf.1, h2]
  refine ⟨⟨trimBack t (q :: r), s, t⟩, ?_, rfl, rfl, ⟨hne, ?_, ?_, b2⟩, ?_, ?_, ?_, ?_, ?_, ?_⟩
  · unfold resize
    have htol : (0 : ℚ) < tol := by norm_num [tol]
    rw [if_neg (by linarith), resizeFront_eq h0 (hst.trans hte), h1]
    simp only [bind, Except.bind, resizeBack, if_neg (not_lt.2 hst), if_neg (not_lt.2 hte), hne,
      if_false]
  · exact hhead
  · exact h3.sublist b1
  · intro τ a b
    rw [b5 τ b, h4 τ a]
  · intro h
    exact (h5 h).sublist b1
  · intro h
    rw [h6 (hb.trans h)] at b4
    rwa [h6 (hb.trans h)]
  · intro p hp
    rcases List.mem_cons.1 (b1.subset hp) with rfl | hp
    · rcases h8 with h8 | h8
      · exact Or.inl h8
      · exact Or.inr ⟨h2, h8⟩
    · exact Or.inl (h7 p hp)
  · intro p hp hsp hpt
    exact b3 p (List.mem_cons_of_mem _ (h9 p hp hsp)) hpt
  · rcases h10 with h10 | h10
    · left
      intro p hp
      rcases List.mem_cons.1 (b1.subset hp) with rfl | hp
      · exact h10
      · exact h7 p hp
    · right
      refine ⟨⟨hne, hhead, h3.sublist b1, b2⟩, fun p hp => h10 p ?_⟩
      obtain ⟨suf, hsuf⟩ := b4
      cases ht : trimBack t (q :: r) with
      | nil => exact absurd ht hne
      | cons a m =>
        rw [ht] at hsuf
        simp only [List.cons_append, List.cons.injEq] at hsuf
        simp only [ht, List.tail_cons] at hp
        rw [← hsuf.2]
        exact List.mem_append_left _ hp

/-- `resize` beyond the end: constant `v` from the old end on. -/
theorem resize_beyond {x : Signal} {s t : ℚ} (v : ℚ) (hx : WF0 x)
    (h0 : x.beginTime ≤ s) (hse : s ≤ x.endTime) (hte : x.endTime < t) (hcl : KeepsSlope x s) :
    ∃ z, resize x s t v = .ok z ∧ z.beginTime = s ∧ z.endTime = t ∧ WF0 z ∧
      (∀ τ, pl s ≤ τ → τ ≤ mi x.endTime → val z.samples τ = val x.samples τ) ∧
      (∀ τ, pl x.endTime ≤ τ → val z.samples τ = some v) ∧
      (∀ p ∈ z.samples, p ∈ x.samples ∨ p = ⟨x.endTime, v, 0⟩ ∨ p.time = s ∧
        ∃ f ∈ x.samples, f.time < s ∧ p.value = f.valueAt s ∧ p.derivative = f.derivative) ∧
      (∀ p ∈ z.samples.dropLast, p ∈ x.samples ∨ p.time = s) := by
  obtain ⟨p0, r0, hl, hb⟩ := hx.exists_cons
  obtain ⟨q, r, h1, h2, h3, h4, h5, h6, h7, h8, h9, h10⟩ :=
    front_spec hl hx.sorted (hb.le.trans h0) (by rw [hb]; exact hcl)
  have hle : ∀ p ∈ q :: r, p.time ≤ x.endTime := by
    intro p hp
    rcases List.mem_cons.1 hp with rfl | hp
    · rw [h2]; exact hse
    · exact hx.le_end p (h7 p hp)
  obtain ⟨b, hlast⟩ : ∃ b, (q :: r).getLast? = some b := ⟨_, List.getLast?_eq_some_getLast (by simp)⟩
  have hbm : b ∈ q :: r := List.mem_of_getLast? hlast
  have hcurb : ∀ τ, pl x.endTime ≤ τ → cur (q :: r) τ = some b := fun τ hτ =>
    val_append_last hlast (le_trans (by simpa using hle b hbm) hτ)
  have hmem : ∀ p ∈ q :: r, p ∈ x.samples ∨ p.time = s ∧
        ∃ f ∈ x.samples, f.time < s ∧ p.value = f.valueAt s ∧ p.derivative = f.derivative := by
    intro p hp
    rcases List.mem_cons.1 hp with rfl | hp
    · rcases h8 with h8 | h8
      · exact Or.inl h8
      · exact Or.inr ⟨h2, h8⟩
    · exact Or.inl (h7 p hp)
  have htol : (0 : ℚ) < tol := by norm_num [tol]
  have hst : s ≤ t := hse.trans hte.le
  by_cases hbv : b.value ≠ v ∨ b.derivative ≠ 0
  · refine ⟨⟨(q :: r) ++ [⟨x.endTime, v, 0⟩], s, t⟩, ?_, rfl, rfl, ⟨by simp, ?_, ?_, ?_⟩, ?_, ?_, ?_, ?_⟩
    · unfold resize
      rw [if_neg (by linarith), resizeFront_eq h0 hse, h1]
      simp only [bind, Except.bind, resizeBack, if_neg (not_lt.2 hst), if_pos hte, hlast,
        if_pos hbv]
      simp
    · intro p hp; simp at hp; rw [← hp, h2]
    · exact List.pairwise_append.2 ⟨h3, by simp, fun p hp a ha => by
        simp at ha; subst ha; exact hle p hp⟩
    · intro p hp
      rcases List.mem_append.1 hp with hp | hp
      · exact (hle p hp).trans hte.le
      · simp at hp; subst hp; exact hte.le
    · intro τ ha hb
      rw [← h4 τ ha]
      have : ¬ pl x.endTime ≤ τ := by
        rw [not_le]; exact lt_of_le_of_lt hb (by simp)
      simp only [val, cur_append]
      simp [cur, this]
    · intro τ hτ
      simp only [val, cur_append]
      simp [cur, hτ, Sample.valueAt]
    · intro p hp
      rcases List.mem_append.1 hp with hp | hp
      · rcases hmem p hp with h | h
        · exact Or.inl h
        · exact Or.inr (Or.inr h)
      · simp at hp; exact Or.inr (Or.inl hp)
    · intro p hp
      rw [List.dropLast_concat] at hp
      exact (hmem p hp).imp id And.left
  · refine ⟨⟨q :: r, s, t⟩, ?_, rfl, rfl, ⟨by simp, ?_, h3, ?_⟩, ?_, ?_, ?_, ?_⟩
    · unfold resize
      rw [if_neg (by linarith), resizeFront_eq h0 hse, h1]
      simp only [bind, Except.bind, resizeBack, if_neg (not_lt.2 hst), if_pos hte, hlast,
        if_neg hbv]
      simp
    · intro p hp; simp at hp; rw [← hp, h2]
    · intro p hp; exact (hle p hp).trans hte.le
    · intro τ ha _; exact h4 τ ha
    · intro τ hτ
      push Not at hbv
      simp only [val, hcurb τ hτ, Option.map_some, Sample.valueAt, hbv.1, hbv.2]
      simp
    · intro p hp
      rcases hmem p hp with h | h
      · exact Or.inl h
      · exact Or.inr (Or.inr h)
    · intro p hp
      exact (hmem p (List.dropLast_subset _ hp)).imp id And.left

end STLRom
