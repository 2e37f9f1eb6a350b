import Verif.Proofs.Boolean
import Verif.Proofs.Resize

/-!
# The left time robustness of a left time robustness signal
-/

namespace STLRom
open Signal

theorem boolList_steps (E : ℚ) : ∀ {l : List Sample}, SInc l →
    SInc (boolList E l) ∧ ∀ p, l.head? = some p → ∀ q ∈ boolList E l, p.time ≤ q.time := by
  intro l
  induction l with
  | nil => intro _; exact ⟨List.Pairwise.nil, by simp⟩
  | cons i is ih =>
    intro h
    obtain ⟨h1, h2⟩ := List.pairwise_cons.1 h
    obtain ⟨a, b⟩ := ih h2
    have hlt : ∀ q ∈ boolList E is, i.time < q.time ∧ (crosses i (nextTime E is) → zeroOf i < q.time) := by
      intro q hq
      cases is with
      | nil => simp [boolList] at hq
      | cons n r =>
        have := b n rfl q hq
        exact ⟨(h1 n (by simp)).trans_le this, fun hc => hc.2.trans_le this⟩
    constructor
    · rw [boolList, boolPiece]
      by_cases hc : crosses i (nextTime E is)
      · rw [if_pos hc]
        refine List.pairwise_cons.2 ⟨?_, List.pairwise_cons.2 ⟨fun q hq => (hlt q hq).2 hc, a⟩⟩
        intro q hq
        rcases List.mem_cons.1 hq with rfl | hq
        · exact zeroOf_gt hc
        · exact (hlt q hq).1
      · rw [if_neg hc]
        exact List.pairwise_cons.2 ⟨fun q hq => (hlt q hq).1, a⟩
    · intro p hp q hq
      simp only [List.head?_cons, Option.some.injEq] at hp
      subst hp
      rcases List.mem_append.1 hq with hq | hq
      · rcases (boolPiece_mem hq).2.2 with h | h
        · exact h.ge
        · exact h.1.le
      · exact (hlt q hq).1.le

theorem dedupFrom_id : ∀ (l : List Sample) (b : Sample), Alternates (b :: l) → dedupFrom b l = l := by
  intro l
  induction l with
  | nil => intro b _; rfl
  | cons f r ih =>
    intro b h
    obtain ⟨h1, h2⟩ := List.isChain_cons_cons.1 h
    rw [dedupFrom, if_neg h1, ih f h2]

/-- What `compute_boolean` returns, by the position of the end. -/
theorem computeBoolean_steps {y : Signal} {p : Sample} {r : List Sample} (hs : SInc (p :: r))
    (hx : boolList y.endTime y.samples = p :: r) (hp : p.time = y.beginTime) :
    ∃ c d, p :: dedupFrom p r = d ++ [c] ∧ computeBoolean y =
      .ok ⟨if c.time = y.endTime then d else p :: dedupFrom p r, y.beginTime, y.endTime⟩ := by
  have hloop := simplifyLoop_eq y.beginTime r [] p (r.length + 1) (by omega)
    ⟨p, [], rfl, hp⟩ (fun q hq => by rw [← hp]; exact ((List.pairwise_cons.1 hs).1 q hq).ne')
  simp only [List.nil_append] at hloop
  obtain ⟨c, hc⟩ : ∃ c, (p :: dedupFrom p r).getLast? = some c := by simp [List.getLast?_cons]
  obtain ⟨d, hd⟩ := getLast?_eq_some_append hc
  refine ⟨c, d, hd, ?_⟩
  rw [computeBoolean, booleanLoop_eq]
  simp only [bind, Except.bind, simplify.eq_def, hx]
  rw [hloop]
  simp only [hc]
  by_cases h1 : c.time < y.endTime
  · simp only [if_pos h1, List.getLast?_concat, if_true, List.dropLast_concat, if_neg h1.ne]
  · simp only [if_neg h1, hc]
    by_cases h2 : c.time = y.endTime
    · simp only [if_pos h2, hd, List.dropLast_concat]
    · simp only [if_neg h2]

/-- The samples of the left time robustness of a Boolean signal. -/
def leftOf (p : Sample) : Sample := if 0 < p.value then ⟨p.time, tol, 1⟩ else ⟨p.time, -tol, -1⟩

theorem leftOf_time (p : Sample) : (leftOf p).time = p.time := by
  unfold leftOf; split_ifs <;> rfl

theorem tol_pos' : (0 : ℚ) < tol := by decide +kernel

theorem boolList_left {E : ℚ} : ∀ {l : List Sample},
    (∀ q ∈ l, (q.value = 0 ∨ q.value = 1) ∧ q.derivative = 0) → boolList E (l.map leftOf) = l := by
  intro l
  induction l with
  | nil => intro _; rfl
  | cons i is ih =>
    intro h
    have h1 := h i (by simp)
    rw [List.map_cons, boolList, ih (fun q hq => h q (by simp [hq])), boolPiece, if_neg]
    · show _ :: is = i :: is
      congr 1
      obtain ⟨t, v, d⟩ := i
      obtain ⟨h2, rfl⟩ := h1
      have := tol_pos'
      rcases h2 with rfl | rfl
      · simp [leftOf, bit, this.le]
      · simp [leftOf, bit, this]
    · unfold crosses leftOf
      have := tol_pos'
      rintro ⟨h, _⟩
      split_ifs at h
      · rcases h with h | h <;> simp at h <;> linarith
      · rcases h with h | h <;> simp at h <;> linarith

/-- `compute_left_time_rob` changes nothing on its own result. -/
theorem leftTimeRob_again {y z : Signal} {p : Sample} (hs : SInc y.samples)
    (hh : y.samples.head? = some p) (hp : p.time = y.beginTime) (h : computeLeftTimeRob y = .ok z)
    (hz : z.samples ≠ []) :
    SInc z.samples ∧ (∃ q, z.samples.head? = some q ∧ q.time = z.beginTime) ∧
      z.endTime = y.endTime ∧
      ((∀ p ∈ y.samples, p.time ≤ y.endTime) → ∀ p ∈ z.samples, p.time ≤ z.endTime) ∧
      computeLeftTimeRob z = .ok z := by
  obtain ⟨p', l, hy⟩ : ∃ p' l, y.samples = p' :: l := by
    cases hy : y.samples with
    | nil => simp [hy] at hh
    | cons a l => exact ⟨a, l, rfl⟩
  have : p' = p := by simpa [hy] using hh
  subst this
  obtain ⟨r, hr⟩ := boolList_cons y.endTime p' l
  rw [← hy] at hr
  obtain ⟨b1, b2⟩ := boolList_steps y.endTime hs
  rw [hr] at b1
  obtain ⟨c, d, h1, h2⟩ := computeBoolean_steps b1 hr hp
  set p0 : Sample := ⟨p'.time, bit p', 0⟩ with hp0
  -- the Boolean samples
  obtain ⟨L, hL, hsub, halt, hlast⟩ : ∃ L, computeBoolean y = .ok ⟨L, y.beginTime, y.endTime⟩ ∧
      (L <+: p0 :: dedupFrom p0 r) ∧ Alternates L ∧
      (∀ e c, L = e ++ [c] → c.time ≠ y.endTime) := by
    have hst : SInc (p0 :: dedupFrom p0 r) :=
      List.Pairwise.sublist ((dedupFrom_sub r p0).cons_cons p0) b1
    by_cases he : c.time = y.endTime
    · rw [if_pos he] at h2
      refine ⟨d, h2, by rw [h1]; exact List.prefix_append _ _, ?_, ?_⟩
      · have := dedupFrom_chain r p0
        rw [h1] at this
        exact (List.isChain_append.1 this).1
      · rintro e c' rfl
        rw [h1] at hst
        have := (List.pairwise_append.1 hst).2.2 c' (by simp) c (by simp)
        rw [← he]
        exact this.ne
    · rw [if_neg he] at h2
      refine ⟨_, h2, List.prefix_rfl, dedupFrom_chain r p0, ?_⟩
      intro e c' h'
      rw [h1] at h'
      have : c = c' := by
        have := congrArg List.getLast? h'
        simpa using this
      rw [← this]
      exact he
  have hzL : z = ⟨L.map leftOf, y.beginTime, y.endTime⟩ := by
    rw [computeLeftTimeRob, hL] at h
    simp only [bind, Except.bind, Except.ok.injEq] at h
    exact h.symm
  have hmem : ∀ q ∈ L, q ∈ boolList y.endTime y.samples := by
    intro q hq
    rw [hr]
    have := hsub.subset hq
    rcases List.mem_cons.1 this with h | h
    · simp [h]
    · exact List.mem_cons_of_mem _ ((dedupFrom_sub r p0).subset h)
  have hLs : SInc L := by
    have hst : SInc (p0 :: dedupFrom p0 r) :=
      List.Pairwise.sublist ((dedupFrom_sub r p0).cons_cons p0) b1
    exact List.Pairwise.sublist hsub.sublist hst
  obtain ⟨L', hLc⟩ : ∃ L', L = p0 :: L' := by
    cases L with
    | nil => exact absurd (by rw [hzL]; rfl) hz
    | cons a L' =>
      obtain ⟨m, hm⟩ := hsub
      simp only [List.cons_append, List.cons.injEq] at hm
      exact ⟨L', by rw [hm.1]⟩
  subst hzL
  refine ⟨?_, ?_, rfl, ?_, ?_⟩
  · show SInc (L.map leftOf)
    refine List.pairwise_map.2 (hLs.imp ?_)
    intro a b hab
    rw [leftOf_time, leftOf_time]
    exact hab
  · exact ⟨leftOf p0, by simp [hLc], by rw [leftOf_time]; exact hp⟩
  · intro hE q hq
    obtain ⟨q', hq', rfl⟩ := List.mem_map.1 hq
    rw [leftOf_time]
    exact (boolList_from (hs.imp fun h => h.le) hE q' (hmem q' hq')).2
  · have hb := boolList_left (E := y.endTime) (fun q hq => boolList_mem (hmem q hq))
    rw [hLc] at hb
    have hid : dedupFrom p0 L' = L' := dedupFrom_id L' p0 (by rw [← hLc]; exact halt)
    obtain ⟨c, d, e1, e2⟩ := computeBoolean_steps (p := p0) (r := L')
      (y := ⟨L.map leftOf, y.beginTime, y.endTime⟩)
      (by rw [← hLc]; exact hLs) (by rw [hLc]; exact hb) hp
    rw [hid, ← hLc] at e1 e2
    rw [if_neg (hlast d c e1)] at e2
    rw [computeLeftTimeRob, e2]
    rfl

end STLRom
