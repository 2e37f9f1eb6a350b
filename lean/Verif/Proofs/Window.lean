import Verif.Proofs.Plateau

/-!
# The bounded `eventually`: greatest value over a sliding window
-/

namespace STLRom
open Signal

theorem cur_split {l : List Sample} {σ : Pt} {s : Sample} (h : cur l σ = some s) :
    ∃ l1 l2, l = l1 ++ s :: l2 ∧ pl s.time ≤ σ ∧ ∀ p, l2.head? = some p → σ < pl p.time := by
  induction l with
  | nil => simp [cur] at h
  | cons p l ih =>
    simp only [cur] at h
    rcases hc : cur l σ with _ | q
    · simp only [hc, Option.none_or] at h
      split_ifs at h with hp
      simp only [Option.some.injEq] at h
      subst h
      refine ⟨[], l, rfl, hp, fun q hq => ?_⟩
      exact cur_eq_none.1 hc q (List.mem_of_head? hq)
    · rw [hc] at h
      simp only [Option.some_or, Option.some.injEq] at h
      subst h
      obtain ⟨l1, l2, h1, h2, h3⟩ := ih hc
      exact ⟨p :: l1, l2, by rw [h1]; rfl, h2, h3⟩

/-- The value on a piece: from the sample's time to just before the next one. -/
theorem val_piece {l1 l2 : List Sample} {s : Sample} {τ : Pt} (hs : Sorted (l1 ++ s :: l2))
    (h1 : pl s.time ≤ τ) (h2 : ∀ p, l2.head? = some p → τ < pl p.time) :
    val (l1 ++ s :: l2) τ = some (s.valueAt τ.time) := by
  have hl2 : cur l2 τ = none := by
    rw [cur_eq_none]
    intro q hq
    cases l2 with
    | nil => simp at hq
    | cons n l2 =>
      have h3 := h2 n (by simp)
      rcases List.mem_cons.1 hq with rfl | hq
      · exact h3
      · have h4 := (List.pairwise_cons.1 (List.pairwise_append.1 hs).2.1).2
        have := (List.pairwise_cons.1 h4).1 q hq
        exact lt_of_lt_of_le h3 (by simpa using this)
  simp [val, cur_append, cur, hl2, h1]

/-- Facts about the peaks of (a suffix of) a signal. -/
theorem pk_facts {B e : ℚ} : ∀ (s : Sample) (l : List Sample),
    (∃ p ∈ pk B e (s :: l), p.time = e ∧ ∃ q, (s :: l).getLast? = some q ∧ q.valueAt e ≤ p.value) ∧
    (∀ q ∈ l, ∃ p ∈ pk B e (s :: l), p.time = q.time ∧ q.value ≤ p.value) ∧
    (∀ l1 l2 a n, s :: l = l1 ++ a :: n :: l2 →
      ∃ p ∈ pk B e (s :: l), p.time = n.time ∧ a.valueAt n.time ≤ p.value)
  | s, [] => by
    refine ⟨⟨⟨e, fmax (-B) (s.valueAt e)⟩, by simp [pk], rfl, s, by simp, ?_⟩, by simp, ?_⟩
    · rw [fmax_eq]; exact le_max_right _ _
    · intro l1 l2 a n h
      have := congrArg List.length h
      simp at this
      omega
  | s, s' :: l => by
    obtain ⟨⟨p, hp, hpe, q, hq, hv⟩, h2, h3⟩ := pk_facts (B := B) (e := e) s' l
    refine ⟨⟨p, by simp [pk, hp], hpe, q, by simpa [List.getLast?_cons_cons] using hq, hv⟩, ?_, ?_⟩
    · intro q hq
      rcases List.mem_cons.1 hq with rfl | hq
      · refine ⟨⟨q.time, fmax q.value (s.valueAt q.time)⟩, by simp [pk], rfl, ?_⟩
        rw [fmax_eq]; exact le_max_left _ _
      · obtain ⟨p, hp, h⟩ := h2 q hq
        exact ⟨p, by simp [pk, hp], h⟩
    · intro l1 l2 a n h
      cases l1 with
      | nil =>
        simp only [List.nil_append, List.cons.injEq] at h
        obtain ⟨rfl, rfl, rfl⟩ := h
        refine ⟨⟨s'.time, fmax s'.value (s.valueAt s'.time)⟩, by simp [pk], rfl, ?_⟩
        rw [fmax_eq]; exact le_max_right _ _
      | cons b l1 =>
        simp only [List.cons_append, List.cons.injEq] at h
        obtain ⟨p, hp, h⟩ := h3 l1 l2 a n h.2
        exact ⟨p, by simp [pk, hp], h⟩

/-- Times of the peaks. -/
theorem pk_times {B e : ℚ} : ∀ (s : Sample) (l : List Sample), Sorted (s :: l) →
    (∀ p ∈ s :: l, p.time ≤ e) →
    PSorted (pk B e (s :: l)) ∧
    (∀ p ∈ pk B e (s :: l), p.time = e ∨ ∃ q ∈ l, p.time = q.time)
  | s, [] => by simp [pk, PSorted]
  | s, s' :: l => by
    intro hs hle
    obtain ⟨h1, h2⟩ := pk_times (B := B) s' l (List.pairwise_cons.1 hs).2
      (fun p hp => hle p (by simp [hp]))
    refine ⟨List.pairwise_cons.2 ⟨?_, h1⟩, ?_⟩
    · intro p hp
      rcases h2 p hp with h | ⟨q, hq, h⟩
      · rw [h]; exact hle s' (by simp)
      · rw [h]; exact (List.pairwise_cons.1 (List.pairwise_cons.1 hs).2).1 q hq
    · intro p hp
      simp only [pk, List.mem_cons] at hp
      rcases hp with rfl | hp
      · exact Or.inr ⟨s', by simp, rfl⟩
      · rcases h2 p hp with h | ⟨q, hq, h⟩
        · exact Or.inl h
        · exact Or.inr ⟨q, by simp [hq], h⟩

theorem WF0.begin_le {x : Signal} (h : WF0 x) : ∀ p ∈ x.samples, x.beginTime ≤ p.time := by
  obtain ⟨f, l, hl, hf⟩ := h.exists_cons
  intro p hp
  rw [hl] at hp
  rcases List.mem_cons.1 hp with rfl | hp
  · exact hf.ge
  · rw [← hf]
    have := h.sorted
    rw [hl] at this
    exact (List.pairwise_cons.1 this).1 p hp

/-- A peak's value is not above the signal around its time. -/
theorem pk_le {x : Signal} {B : ℚ} (hx : WF0 x) (hg : GC x) (hB : -B ≤ x.v (pl x.endTime)) :
    ∀ (l1 : List Sample) (s : Sample) (l : List Sample), x.samples = l1 ++ s :: l →
      ∀ p ∈ pk B x.endTime (s :: l), x.beginTime < p.time →
        p.value ≤ max (x.v (mi p.time)) (x.v (pl p.time))
  | l1, s, [], h => by
    intro p hp _
    simp only [pk, List.mem_singleton] at hp
    subst hp
    have : x.v (pl x.endTime) = s.valueAt x.endTime := by
      apply Signal.v_of_val
      rw [h]
      exact val_piece (h ▸ hx.sorted) (by simpa using hx.le_end s (by simp [h])) (by simp)
    simp only [fmax_eq]
    refine le_trans ?_ (le_max_right _ _)
    rw [← this]
    exact max_le hB le_rfl
  | l1, s, s' :: l, h => by
    intro p hp hsb'
    simp only [pk, List.mem_cons] at hp
    rcases hp with rfl | hp
    · have hst : s.time ≤ s'.time := by
        have := hx.sorted
        rw [h] at this
        exact (List.pairwise_cons.1 (List.pairwise_append.1 this).2.1).1 s' (by simp)
      simp only at hsb'
      simp only [fmax_eq]
      refine max_le (hg s' (by simp [h]) hsb').2 ?_
      rcases hst.lt_or_eq with hlt | heq
      · have : x.v (mi s'.time) = s.valueAt s'.time := by
          apply Signal.v_of_val
          rw [h]
          refine val_piece (h ▸ hx.sorted) (by simpa using hlt) ?_
          intro p hp
          simp at hp; subst hp; simp
        rw [← this]; exact le_max_left _ _
      · rw [← heq, valueAt_self]
        exact (hg s (by simp [h]) (heq ▸ hsb')).2
    · exact pk_le hx hg hB (l1 ++ [s]) s' l (by simp [h]) p hp hsb'

/-- Tidiness of the peaks for strictly increasing sample times. -/
theorem pk_tidy_sinc {B e : ℚ} : ∀ (s : Sample) (l : List Sample), SInc (s :: l) →
    (∀ p ∈ s :: l, p.time ≤ e) → (∀ p ∈ s :: l, p.time = e → -B ≤ p.value) →
    Tidy e (pk B e (s :: l))
  | s, [] => by simp [pk, Tidy]
  | s, s' :: l => by
    intro hs hle hB
    have hs' := (List.pairwise_cons.1 hs).2
    refine List.pairwise_cons.2 ⟨?_, pk_tidy_sinc s' l hs' (fun p hp => hle p (by simp [hp]))
      (fun p hp => hB p (by simp [hp]))⟩
    intro p hp heq
    have heq' : s'.time = p.time := heq
    cases l with
    | nil =>
      simp only [pk, List.mem_singleton] at hp
      subst hp
      have he : s'.time = e := heq'
      refine ⟨?_, fun h => absurd h (by simp [he])⟩
      simp only [fmax_eq]
      rw [← he, valueAt_self]
      refine le_trans ?_ (le_max_left _ _)
      exact max_le (hB s' (by simp) he) le_rfl
    | cons n l =>
      exfalso
      have h2 := (pk_times (B := B) (e := e) s' (n :: l)
        (List.Pairwise.imp le_of_lt hs') (fun p hp => hle p (List.mem_cons_of_mem _ hp))).2 p hp
      have hn := (List.pairwise_cons.1 hs').1 n (by simp)
      rcases h2 with h | ⟨q, hq, h⟩
      · have := hle n (by simp)
        rw [← h, ← heq'] at this
        exact absurd hn (not_lt.2 this)
      · have := (List.pairwise_cons.1 hs').1 q hq
        rw [← h, ← heq'] at this
        exact lt_irrefl _ this

/-- For a continuous signal with all samples on its graph, so are the peaks. -/
theorem pk_cg {x : Signal} {B : ℚ} (hx : WF0 x) (hg : CG x) (hB : -B ≤ x.v (pl x.endTime)) :
    ∀ (l1 : List Sample) (s : Sample) (l : List Sample), x.samples = l1 ++ s :: l →
      ∀ p ∈ pk B x.endTime (s :: l), p.value = x.v (pl p.time)
  | l1, s, [], h => by
    intro p hp
    simp only [pk, List.mem_singleton] at hp
    subst hp
    have : x.v (pl x.endTime) = s.valueAt x.endTime := by
      apply Signal.v_of_val
      rw [h]
      exact val_piece (h ▸ hx.sorted) (by simpa using hx.le_end s (by simp [h])) (by simp)
    simp only [fmax_eq]
    rw [← this]
    exact max_eq_right hB
  | l1, s, s' :: l, h => by
    intro p hp
    simp only [pk, List.mem_cons] at hp
    rcases hp with rfl | hp
    · have hst : s.time ≤ s'.time := by
        have := hx.sorted
        rw [h] at this
        exact (List.pairwise_cons.1 (List.pairwise_append.1 this).2.1).1 s' (by simp)
      have hsb' : x.beginTime ≤ s.time := hx.begin_le s (by simp [h])
      have h1 : s'.value = x.v (pl s'.time) := hg.vc s' (by simp [h])
      have h2 : s.valueAt s'.time = x.v (pl s'.time) := by
        rcases hst.lt_or_eq with hlt | heq
        · rw [← hg.cts _ (hsb'.trans_lt hlt) (hx.le_end s' (by simp [h]))]
          symm
          apply Signal.v_of_val
          rw [h]
          refine val_piece (h ▸ hx.sorted) (by simpa using hlt) ?_
          intro p hp
          simp at hp; subst hp; simp
        · rw [← heq, valueAt_self]; exact hg.vc s (by simp [h])
      simp only [fmax_eq]
      rw [h2, h1, max_self]
    · exact pk_cg hx hg hB (l1 ++ [s]) s' l (by simp [h]) p hp

theorem pk_tidy_cg {x : Signal} {B : ℚ} (hx : WF0 x) (hg : CG x) (hB : -B ≤ x.v (pl x.endTime)) :
    Tidy x.endTime (pk B x.endTime x.samples) := by
  obtain ⟨s, l, hl, _⟩ := hx.exists_cons
  have := pk_cg hx hg hB [] s l hl
  rw [← hl] at this
  refine List.Pairwise.imp_of_mem (R := fun _ _ => True) ?_ (List.pairwise_of_forall fun _ _ => trivial)
  intro p q hp hq _ heq
  have h1 := this p hp
  have h2 := this q hq
  rw [← heq, ← h1] at h2
  exact ⟨h2.le, fun _ => h2⟩

/-- The value of the shifted operand: the operand at the far end of the window, `-B` once that
is past the end. -/
def farVal (x : Signal) (B a : ℚ) (τ : Pt) : ℚ :=
  if τ.shift a ≤ mi x.endTime then x.v (τ.shift a) else -B

theorem valueAt_le_max {s : Sample} {l r t : ℚ} (h1 : l ≤ t) (h2 : t ≤ r) :
    s.valueAt t ≤ max (s.valueAt l) (s.valueAt r) := by
  rcases le_total 0 s.derivative with h | h
  · refine le_trans ?_ (le_max_right _ _)
    simp only [Sample.valueAt]
    have := mul_le_mul_of_nonneg_left (sub_le_sub_right h2 s.time) h
    linarith
  · refine le_trans ?_ (le_max_left _ _)
    simp only [Sample.valueAt]
    have := mul_le_mul_of_nonpos_left (sub_le_sub_right h1 s.time) h
    linarith

/-- The greatest value over a window is at one of its ends or at a peak inside. -/
theorem window_top {x : Signal} {B a M : ℚ} {τ : Pt} (hx : WF0 x) (hg : GC x) (ha : 0 < a)
    (hB : ∀ σ, pl x.beginTime ≤ σ → σ ≤ pl x.endTime → -B ≤ x.v σ)
    (h1 : pl x.beginTime ≤ τ) (h2 : τ ≤ mi x.endTime)
    (hM : PeakVal B a (pk B x.endTime x.samples) τ M) :
    Top x.v τ (min (τ.shift a) (pl x.endTime)) (max (x.v τ) (max (farVal x B a τ) M)) := by
  obtain ⟨f, l, hl, hfb⟩ := hx.exists_cons
  have hbe := hx.begin_le_end
  obtain ⟨hp2, hp1, hp3⟩ := pk_facts (B := B) (e := x.endTime) f l
  rw [← hl] at hp2 hp1 hp3
  have hpt := pk_times (B := B) (e := x.endTime) f l (hl ▸ hx.sorted) (hl ▸ hx.le_end)
  have hMge : ∀ p ∈ pk B x.endTime x.samples, Live a τ p → p.value ≤ M := by
    rcases hM with ⟨_, _, _, _, h⟩ | ⟨_, h⟩
    · exact h
    · intro p hp hl; exact absurd hl (h p hp)
  have hτa : τ ≤ τ.shift a := Pt.le_shift ha.le
  have hτe : τ ≤ pl x.endTime := h2.trans (by simp)
  have hub : ∀ σ, τ ≤ σ → σ ≤ min (τ.shift a) (pl x.endTime) →
      x.v σ ≤ max (x.v τ) (max (farVal x B a τ) M) := by
    intro σ hσ1 hσ2
    have hσa := le_min_iff.1 hσ2
    have hbσ := h1.trans hσ1
    have hv := hx.val hbσ
    rcases hc : cur x.samples σ with _ | s
    · simp [val, hc] at hv
    obtain ⟨l1, l2, hsp, hsσ, hnx⟩ := cur_split hc
    have hpiece : ∀ ρ, pl s.time ≤ ρ → (∀ p, l2.head? = some p → ρ < pl p.time) →
        x.v ρ = s.valueAt ρ.time := by
      intro ρ a1 a2
      apply Signal.v_of_val
      rw [hsp]; exact val_piece (hsp ▸ hx.sorted) a1 a2
    rw [hpiece σ hsσ hnx]
    -- left end of the piece inside the window
    obtain ⟨L, hL1, hL2⟩ : ∃ L, L ≤ σ.time ∧ s.valueAt L ≤ max (x.v τ) (max (farVal x B a τ) M) := by
      rcases le_or_gt (pl s.time) τ with h | h
      · refine ⟨τ.time, Pt.time_le hσ1, ?_⟩
        rw [← hpiece τ h (fun p hp => lt_of_le_of_lt hσ1 (hnx p hp))]
        exact le_max_left _ _
      · refine ⟨s.time, Pt.time_le hsσ, ?_⟩
        have hsl : s ∈ l := by
          have : s ∈ x.samples := by rw [hsp]; simp
          rw [hl] at this
          rcases List.mem_cons.1 this with rfl | h'
          · rw [hfb] at h; exact absurd h1 (not_le.2 h)
          · exact h'
        obtain ⟨p, hp, hpt', hpv⟩ := hp1 s hsl
        rw [valueAt_self]
        refine hpv.trans ((hMge p hp ⟨by rw [hpt']; exact h, ?_⟩).trans
          ((le_max_right _ _).trans (le_max_right _ _)))
        rw [hpt']; exact hsσ.trans hσa.1
    obtain ⟨R, hR1, hR2⟩ : ∃ R, σ.time ≤ R ∧ s.valueAt R ≤ max (x.v τ) (max (farVal x B a τ) M) := by
      have hfar : τ.shift a ≤ mi x.endTime → (∀ p, l2.head? = some p → τ.shift a < pl p.time) →
          ∃ R, σ.time ≤ R ∧ s.valueAt R ≤ max (x.v τ) (max (farVal x B a τ) M) := by
        intro h3 h4
        refine ⟨(τ.shift a).time, Pt.time_le hσa.1, ?_⟩
        rw [← hpiece _ (hsσ.trans hσa.1) h4]
        refine le_trans ?_ ((le_max_left _ _).trans (le_max_right _ _))
        rw [farVal, if_pos h3]
      cases l2 with
      | nil =>
        rcases le_or_gt (pl x.endTime) (τ.shift a) with h | h
        · obtain ⟨p, hp, hpe, q, hq, hqv⟩ := hp2
          have : q = s := by
            rw [hsp] at hq; simpa using hq.symm
          subst this
          refine ⟨x.endTime, le_pl_iff.1 hσa.2, hqv.trans ((hMge p hp ⟨?_, ?_⟩).trans
            ((le_max_right _ _).trans (le_max_right _ _)))⟩
          · rw [hpe]; exact lt_of_le_of_lt h2 (by simp)
          · rw [hpe]; exact h
        · exact hfar (by rw [← not_lt, mi_lt_iff, not_le]; exact h) (by simp)
      | cons n l2 =>
        have hn := hnx n (by simp)
        rcases le_or_gt (pl n.time) (τ.shift a) with h | h
        · obtain ⟨p, hp, hpn, hpv⟩ := hp3 l1 l2 s n hsp
          refine ⟨n.time, ?_, hpv.trans ((hMge p hp ⟨?_, ?_⟩).trans
            ((le_max_right _ _).trans (le_max_right _ _)))⟩
          · have := Pt.time_le hn.le; simpa [pl] using this
          · rw [hpn]; exact lt_of_le_of_lt hσ1 hn
          · rw [hpn]; exact h
        · refine hfar ?_ ?_
          · have : τ.shift a ≤ mi n.time := by rw [← not_lt, mi_lt_iff, not_le]; exact h
            exact this.trans (by simpa using hx.le_end n (by simp [hsp]))
          · intro p hp
            simp at hp; subst hp; exact h
    exact (valueAt_le_max hL1 hR1).trans (max_le hL2 hR2)
  refine ⟨?_, hub⟩
  have hτw : τ ≤ min (τ.shift a) (pl x.endTime) := le_min hτa hτe
  suffices h : ∃ σ, τ ≤ σ ∧ σ ≤ min (τ.shift a) (pl x.endTime) ∧
      max (x.v τ) (max (farVal x B a τ) M) ≤ x.v σ by
    obtain ⟨σ, a1, a2, a3⟩ := h
    exact ⟨σ, a1, a2, le_antisymm (hub σ a1 a2) a3⟩
  have hBτ := hB τ h1 hτe
  have hfar : ∃ σ, τ ≤ σ ∧ σ ≤ min (τ.shift a) (pl x.endTime) ∧ farVal x B a τ ≤ x.v σ := by
    unfold farVal
    split_ifs with h
    · exact ⟨τ.shift a, hτa, le_min le_rfl (h.trans (by simp)), le_rfl⟩
    · exact ⟨τ, le_rfl, hτw, hBτ⟩
  have hMx : ∃ σ, τ ≤ σ ∧ σ ≤ min (τ.shift a) (pl x.endTime) ∧ M ≤ x.v σ := by
    rcases hM with ⟨p, hp, hlv, rfl, _⟩ | ⟨rfl, _⟩
    · have hpe : p.time ≤ x.endTime := by
        rw [hl] at hp
        rcases hpt.2 p hp with h | ⟨q, hq, h⟩
        · exact h.le
        · rw [h]; exact hx.le_end q (by simp [hl, hq])
      have h3 : pl p.time ≤ min (τ.shift a) (pl x.endTime) := le_min hlv.2 (by simpa using hpe)
      have h4 : τ ≤ mi p.time := by rw [← not_lt, mi_lt_iff, not_le]; exact hlv.1
      rcases le_max_iff.1 (pk_le hx hg (hB _ (by simpa using hbe) le_rfl) [] f l hl p
        (by rwa [hl] at hp) (by have := lt_of_le_of_lt h1 hlv.1; simpa using this)) with h | h
      · exact ⟨mi p.time, h4, le_trans (by simp) h3, h⟩
      · exact ⟨pl p.time, hlv.1.le, h3, h⟩
    · exact ⟨τ, le_rfl, hτw, hBτ⟩
  rcases max_choice (x.v τ) (max (farVal x B a τ) M) with h | h
  · rw [h]; exact ⟨τ, le_rfl, hτw, le_rfl⟩
  · rw [h]
    rcases max_choice (farVal x B a τ) M with h' | h' <;> rw [h']
    · exact hfar
    · exact hMx

end STLRom
