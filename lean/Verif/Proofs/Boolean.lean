import Verif.Proofs.AndTop
import Verif.Proofs.Append
import Verif.Proofs.Bridge

/-!
# Boolean signals and time robustness
-/

namespace STLRom
open Signal

/-! ## simplify keeps no redundant sample -/

/-- `f` continues the piece that starts at `b`. -/
def redundant (b f : Sample) : Prop := b.valueAt f.time = f.value ∧ b.derivative = f.derivative

instance (b f : Sample) : Decidable (redundant b f) := by unfold redundant; infer_instance

/-- Drops every sample that continues the last one kept. -/
def dedupFrom (b : Sample) : List Sample → List Sample
  | [] => []
  | f :: r => if redundant b f then dedupFrom b r else f :: dedupFrom f r

theorem simplifyLoop_eq (bt : ℚ) : ∀ (pend done : List Sample) (b : Sample) (n : ℕ),
    pend.length ≤ n → (∃ p l, done ++ [b] = p :: l ∧ p.time = bt) → (∀ q ∈ pend, q.time ≠ bt) →
    simplifyLoop bt n (pend ++ (done ++ [b])) = .ok (done ++ b :: dedupFrom b pend) := by
  intro pend
  induction pend with
  | nil =>
    intro done b n _ hd _
    obtain ⟨p, l, hd, hp⟩ := hd
    rw [List.nil_append, dedupFrom, hd]
    cases n <;> simp [simplifyLoop, hp]
  | cons f pend ih =>
    intro done b n hn hd hne
    obtain ⟨n, rfl⟩ : ∃ m, n = m + 1 := ⟨n - 1, by simp at hn; omega⟩
    have hf : f.time ≠ bt := hne f (by simp)
    rw [List.cons_append, simplifyLoop, if_neg hf]
    have hlast : (f :: (pend ++ (done ++ [b]))).getLast? = some b := by
      rw [← List.cons_append, ← List.append_assoc, List.getLast?_concat]
    rw [hlast]
    simp only [dedupFrom]
    by_cases hc : redundant b f
    · rw [if_neg (by push Not; exact hc), if_pos hc]
      exact ih done b n (by simpa using hn) hd (fun q hq => hne q (by simp [hq]))
    · rw [if_pos (by by_contra h; push Not at h; exact hc h), if_neg hc]
      have := ih (done ++ [b]) f n (by simpa using hn) (by
        obtain ⟨p, l, h, hp⟩ := hd
        exact ⟨p, l ++ [f], by rw [h]; rfl, hp⟩) (fun q hq => hne q (by simp [hq]))
      simpa using this

/-- Neighbours are not redundant. -/
def Alternates (l : List Sample) : Prop := l.IsChain fun p q => ¬ redundant p q

theorem dedupFrom_chain : ∀ (l : List Sample) (b : Sample), Alternates (b :: dedupFrom b l) := by
  intro l
  induction l with
  | nil => intro b; simp [dedupFrom, Alternates]
  | cons f r ih =>
    intro b
    simp only [dedupFrom]
    split_ifs with h
    · exact ih b
    · exact List.isChain_cons_cons.2 ⟨h, ih f⟩

theorem dedupFrom_sub : ∀ (l : List Sample) (b : Sample), (dedupFrom b l).Sublist l := by
  intro l
  induction l with
  | nil => intro b; simp [dedupFrom]
  | cons f r ih =>
    intro b
    simp only [dedupFrom]
    split_ifs with h
    · exact (ih b).cons f
    · exact (ih f).cons_cons f

/-! ## The Boolean loop -/

/-- Truth of a sample. -/
def bit (p : Sample) : ℚ := if 0 < p.value then 1 else 0

/-- Where the line through the sample vanishes. -/
def zeroOf (p : Sample) : ℚ := p.time - p.value / p.derivative

/-- The piece changes its sign before `next`. -/
def crosses (p : Sample) (next : ℚ) : Prop :=
  (0 < p.value ∧ p.derivative < 0 ∨ p.value < 0 ∧ 0 < p.derivative) ∧ zeroOf p < next

instance (p : Sample) (next : ℚ) : Decidable (crosses p next) := by unfold crosses; infer_instance

/-- The Boolean samples of one piece. -/
def boolPiece (p : Sample) (next : ℚ) : List Sample :=
  ⟨p.time, bit p, 0⟩ :: if crosses p next then [⟨zeroOf p, 1 - bit p, 0⟩] else []

/-- Time of the next sample, or the end. -/
def nextTime (E : ℚ) : List Sample → ℚ
  | [] => E
  | n :: _ => n.time

/-- The Boolean samples of a list. -/
def boolList (E : ℚ) : List Sample → List Sample
  | [] => []
  | i :: is => boolPiece i (nextTime E is) ++ boolList E is

theorem booleanLoop_eq (E : ℚ) : ∀ l : List Sample, booleanLoop E l = .ok (boolList E l) := by
  intro l
  induction l with
  | nil => rfl
  | cons i is ih =>
    have key : ∀ n : ℚ, (if 0 < i.value then
        if i.derivative < 0 then do
          let q ← qdiv i.value i.derivative
          if i.time - q < n then
            Except.ok ((⟨i.time, 1, 0⟩ : Sample) :: ⟨i.time - q, 0, 0⟩ :: boolList E is)
          else .ok (⟨i.time, 1, 0⟩ :: boolList E is)
        else .ok (⟨i.time, 1, 0⟩ :: boolList E is)
      else
        if i.value < 0 ∧ 0 < i.derivative then do
          let q ← qdiv i.value i.derivative
          if i.time - q < n then .ok (⟨i.time, 0, 0⟩ :: ⟨i.time - q, 1, 0⟩ :: boolList E is)
          else .ok (⟨i.time, 0, 0⟩ :: boolList E is)
        else .ok (⟨i.time, 0, 0⟩ :: boolList E is) : M (List Sample)) =
        .ok (boolPiece i n ++ boolList E is) := by
      intro n
      simp only [boolPiece, crosses, bit, zeroOf]
      by_cases c1 : 0 < i.value
      · by_cases c2 : i.derivative < 0
        · simp only [c1, c2, qdiv, c2.ne, if_true, if_false, true_and, true_or, bind, Except.bind]
          split_ifs <;> simp
        · simp [c1, c2, not_lt.2 c1.le]
      · by_cases c2 : i.value < 0 ∧ 0 < i.derivative
        · simp only [c1, c2.1, c2.2, qdiv, c2.2.ne', if_true, if_false, true_and, false_and,
            false_or, bind, Except.bind, and_self]
          split_ifs <;> simp
        · simp [c1, c2]
    cases is with
    | nil => exact key E
    | cons n r =>
      have := key n.time
      simp only [booleanLoop] at ih ⊢
      rw [ih]
      exact this

theorem zeroOf_gt {p : Sample} {n : ℚ} (h : crosses p n) : p.time < zeroOf p := by
  rcases h.1 with ⟨a, b⟩ | ⟨a, b⟩
  · have := div_neg_of_pos_of_neg a b
    unfold zeroOf; linarith
  · have := div_neg_of_neg_of_pos a b
    unfold zeroOf; linarith

theorem boolPiece_mem {p q : Sample} {n : ℚ} (h : q ∈ boolPiece p n) :
    (q.value = 0 ∨ q.value = 1) ∧ q.derivative = 0 ∧
      (q.time = p.time ∨ p.time < q.time ∧ q.time < n) := by
  rcases List.mem_cons.1 h with rfl | h
  · refine ⟨?_, rfl, Or.inl rfl⟩
    simp only [bit]
    split_ifs <;> simp
  · split_ifs at h with hc
    · rw [List.mem_singleton] at h
      subst h
      refine ⟨?_, rfl, Or.inr ⟨zeroOf_gt hc, hc.2⟩⟩
      simp only [bit]
      split_ifs <;> simp
    · simp at h

theorem boolList_mem {E : ℚ} : ∀ {l : List Sample} {q : Sample}, q ∈ boolList E l →
    (q.value = 0 ∨ q.value = 1) ∧ q.derivative = 0 := by
  intro l
  induction l with
  | nil => intro q h; simp [boolList] at h
  | cons i is ih =>
    intro q h
    rcases List.mem_append.1 h with h | h
    · exact ⟨(boolPiece_mem h).1, (boolPiece_mem h).2.1⟩
    · exact ih h

theorem nextTime_le {E : ℚ} {i : Sample} {is : List Sample} (hs : Sorted (i :: is))
    (hE : ∀ p ∈ i :: is, p.time ≤ E) : i.time ≤ nextTime E is := by
  cases is with
  | nil => exact hE i (by simp)
  | cons n r => exact (List.pairwise_cons.1 hs).1 n (by simp)

theorem boolList_from {E : ℚ} : ∀ {l : List Sample}, Sorted l → (∀ p ∈ l, p.time ≤ E) →
    (∀ q ∈ boolList E l, nextTime E l ≤ q.time ∧ q.time ≤ E) := by
  intro l
  induction l with
  | nil => intro _ _ q h; simp [boolList] at h
  | cons i is ih =>
    intro hs hE q h
    have hE' : ∀ p ∈ is, p.time ≤ E := fun p hp => hE p (by simp [hp])
    have hn := nextTime_le hs hE
    have hnE : nextTime E is ≤ E := by
      cases is with
      | nil => exact le_rfl
      | cons n r => exact hE' n (by simp)
    rcases List.mem_append.1 h with h | h
    · rcases (boolPiece_mem h).2.2 with h | h
      · exact ⟨h.ge, h.le.trans (hE i (by simp))⟩
      · exact ⟨h.1.le, h.2.le.trans hnE⟩
    · obtain ⟨a, b⟩ := ih (List.pairwise_cons.1 hs).2 hE' q h
      exact ⟨hn.trans a, b⟩

theorem boolList_pairwise {E : ℚ} (R : ℚ → ℚ → Prop) (hR : ∀ a b, a < b → R a b)
    (hT : ∀ a b c, R a b → b ≤ c → R a c) :
    ∀ {l : List Sample}, Sorted l → (∀ p ∈ l, p.time ≤ E) → (l.Pairwise fun p q => R p.time q.time) →
    (boolList E l).Pairwise fun p q => R p.time q.time := by
  intro l
  induction l with
  | nil => intro _ _ _; simp [boolList]
  | cons i is ih =>
    intro hs hE hp
    have hs' := (List.pairwise_cons.1 hs).2
    have hE' : ∀ p ∈ is, p.time ≤ E := fun p hp => hE p (by simp [hp])
    rw [boolList, List.pairwise_append]
    refine ⟨?_, ih hs' hE' (List.pairwise_cons.1 hp).2, ?_⟩
    · rw [boolPiece]
      split_ifs with hc
      · refine List.pairwise_cons.2 ⟨?_, by simp⟩
        intro q hq
        rw [List.mem_singleton] at hq
        subst hq
        exact hR _ _ (zeroOf_gt hc)
      · simp
    · intro a ha b hb
      have hb' := (boolList_from hs' hE' b hb).1
      rcases (boolPiece_mem ha).2.2 with h | h
      · cases is with
        | nil => simp [boolList] at hb
        | cons n r =>
          rw [h]
          exact hT _ _ _ ((List.pairwise_cons.1 hp).1 n (by simp)) hb'
      · exact hR _ _ (h.2.trans_le hb')

/-- Truth of a piece at a time: positive, or about to be. -/
def trueAt (p : Sample) (t : ℚ) : Prop := 0 < p.valueAt t ∨ p.valueAt t = 0 ∧ 0 < p.derivative

instance (p : Sample) (t : ℚ) : Decidable (trueAt p t) := by unfold trueAt; infer_instance

theorem boolPiece_val {i : Sample} {n t : ℚ} (h0 : ¬ (i.value = 0 ∧ 0 < i.derivative))
    (h1 : i.time ≤ t) (h2 : t < n) :
    val (boolPiece i n) (pl t) = some (if trueAt i t then 1 else 0) := by
  have hcur : ∀ p : Sample, ∀ r, p.time ≤ t → (∀ q ∈ r, t < q.time) → p.derivative = 0 →
      val (p :: r) (pl t) = some p.value := by
    intro p r hp hr hd
    have : cur r (pl t) = none := cur_eq_none.2 fun q hq => by
      have := hr q hq
      simpa using this
    rw [val, cur, this]
    simp [hp, Sample.valueAt, hd]
  have hva : ∀ s, i.valueAt s = i.value + i.derivative * (s - i.time) := fun s => rfl
  have hz : i.derivative ≠ 0 → i.valueAt (zeroOf i) = 0 := by
    intro hd
    rw [hva, zeroOf]
    field_simp
    ring
  have hz' : i.derivative ≠ 0 → i.valueAt t = i.derivative * (t - zeroOf i) := by
    intro hd
    have := hz hd
    rw [hva] at this ⊢
    linarith
  rw [boolPiece]
  by_cases hc : crosses i n
  · rw [if_pos hc]
    by_cases ht : zeroOf i ≤ t
    · rw [val_cons_skip (by simpa using ht), hcur _ [] ht (by simp) rfl]
      rcases hc.1 with ⟨a, b⟩ | ⟨a, b⟩
      · have e := hz' b.ne
        have : i.valueAt t ≤ 0 := by rw [e]; exact mul_nonpos_of_nonpos_of_nonneg b.le (by linarith)
        rw [if_neg (by unfold trueAt; push Not; exact ⟨this, fun _ => b.le⟩)]
        simp [bit, a]
      · have e := hz' b.ne'
        have : 0 ≤ i.valueAt t := by rw [e]; exact mul_nonneg b.le (by linarith)
        rw [if_pos (by
          unfold trueAt
          rcases this.eq_or_lt with h | h
          · exact Or.inr ⟨h.symm, b⟩
          · exact Or.inl h)]
        simp [bit, not_lt.2 a.le]
    · push Not at ht
      rw [hcur ⟨i.time, bit i, 0⟩ _ h1 (by simpa using ht) rfl]
      rcases hc.1 with ⟨a, b⟩ | ⟨a, b⟩
      · have e := hz' b.ne
        have : 0 < i.valueAt t := by rw [e]; exact mul_pos_of_neg_of_neg b (by linarith)
        rw [if_pos (show trueAt i t from Or.inl this)]
        simp [bit, a]
      · have e := hz' b.ne'
        have : i.valueAt t < 0 := by rw [e]; exact mul_neg_of_pos_of_neg b (by linarith)
        rw [if_neg (by unfold trueAt; push Not; exact ⟨this.le, fun h => absurd h this.ne⟩)]
        simp [bit, not_lt.2 a.le]
  · rw [if_neg hc, hcur ⟨i.time, bit i, 0⟩ [] h1 (by simp) rfl]
    congr 1
    simp only [bit]
    have hd0 : 0 ≤ t - i.time := by linarith
    rcases lt_trichotomy i.value 0 with hv | hv | hv
    · rw [if_neg (not_lt.2 hv.le), if_neg]
      by_cases hd : 0 < i.derivative
      · have hzn : n ≤ zeroOf i := by
          by_contra h
          exact hc ⟨Or.inr ⟨hv, hd⟩, not_le.1 h⟩
        have e := hz' hd.ne'
        have : i.valueAt t < 0 := by rw [e]; exact mul_neg_of_pos_of_neg hd (by linarith)
        unfold trueAt; push Not; exact ⟨this.le, fun h => absurd h this.ne⟩
      · have : i.valueAt t < 0 := by
          rw [hva]
          have := mul_nonpos_of_nonpos_of_nonneg (not_lt.1 hd) hd0
          linarith
        unfold trueAt; push Not; exact ⟨this.le, fun h => absurd h this.ne⟩
    · have hd : i.derivative ≤ 0 := by
        by_contra h
        exact h0 ⟨hv, not_le.1 h⟩
      rw [if_neg hv.not_gt, if_neg]
      have : i.valueAt t ≤ 0 := by
        rw [hva, hv, zero_add]
        exact mul_nonpos_of_nonpos_of_nonneg hd hd0
      unfold trueAt; push Not; exact ⟨this, fun _ => hd⟩
    · rw [if_pos hv, if_pos]
      by_cases hd : i.derivative < 0
      · have hzn : n ≤ zeroOf i := by
          by_contra h
          exact hc ⟨Or.inl ⟨hv, hd⟩, not_le.1 h⟩
        have e := hz' hd.ne
        left
        rw [e]; exact mul_pos_of_neg_of_neg hd (by linarith)
      · left
        rw [hva]
        have := mul_nonneg (not_lt.1 hd) hd0
        linarith

theorem val_append_skip (a : List Sample) {b : List Sample} {q : Sample} {r : List Sample} {τ : Pt}
    (hb : b = q :: r) (h : pl q.time ≤ τ) : val (a ++ b) τ = val b τ := by
  have : cur b τ ≠ none := by
    intro hn
    rw [cur_eq_none] at hn
    exact absurd h (not_le.2 (by simpa using hn q (by simp [hb])))
  obtain ⟨p, hp⟩ := Option.ne_none_iff_exists'.1 this
  rw [val, val, cur_append, hp]
  rfl

theorem val_append_none (a : List Sample) {b : List Sample} {τ : Pt}
    (h : ∀ q ∈ b, τ < pl q.time) : val (a ++ b) τ = val a τ := by
  have : cur b τ = none := cur_eq_none.2 fun q hq => by simpa using h q hq
  rw [val, val, cur_append, this]
  cases cur a τ <;> rfl

theorem boolList_val {E t : ℚ} (ht : t < E) : ∀ {l : List Sample}, Sorted l →
    (∀ p ∈ l, p.time ≤ E) → (∀ p ∈ l, ¬ (p.value = 0 ∧ 0 < p.derivative)) →
    ∀ p, cur l (pl t) = some p →
      val (boolList E l) (pl t) = some (if trueAt p t then 1 else 0) := by
  intro l
  induction l with
  | nil => intro _ _ _ p h; simp [cur] at h
  | cons i is ih =>
    intro hs hE h0 p hp
    have hs' := (List.pairwise_cons.1 hs).2
    have hE' : ∀ p ∈ is, p.time ≤ E := fun p hp => hE p (by simp [hp])
    have hfrom := boolList_from hs' hE'
    by_cases hn : nextTime E is ≤ t
    · cases is with
      | nil => exact absurd hn (not_le.2 ht)
      | cons n r =>
        have hcur : cur (n :: r) (pl t) = some p := by
          have : cur (n :: r) (pl t) ≠ none := by
            intro h
            rw [cur_eq_none] at h
            have := h n (by simp)
            simp only [nextTime] at hn
            simp at this
            linarith
          obtain ⟨p', hp'⟩ := Option.ne_none_iff_exists'.1 this
          rw [cur, hp'] at hp
          rw [hp', ← hp]
          rfl
        have e : boolList E (n :: r) = ⟨n.time, bit n, 0⟩ ::
            ((if crosses n (nextTime E r) then [⟨zeroOf n, 1 - bit n, 0⟩] else []) ++
              boolList E r) := rfl
        rw [boolList, val_append_skip _ e (by simpa [nextTime] using hn)]
        exact ih hs' hE' (fun p hp => h0 p (by simp [hp])) p hcur
    · push Not at hn
      have hnone : cur is (pl t) = none := cur_eq_none.2 fun q hq => by
        have : nextTime E is ≤ q.time := by
          cases is with
          | nil => simp at hq
          | cons n r =>
            rcases List.mem_cons.1 hq with rfl | hq
            · exact le_rfl
            · exact (List.pairwise_cons.1 hs').1 q hq
        simp
        linarith
      rw [cur, hnone] at hp
      simp at hp
      obtain ⟨h1, rfl⟩ := hp
      rw [boolList, val_append_none _ (fun q hq => by
        have := (hfrom q hq).1
        simp
        linarith)]
      exact boolPiece_val (h0 i (by simp)) h1 hn

/-! ## compute_boolean -/

theorem boolList_cons (E : ℚ) (i : Sample) (is : List Sample) :
    ∃ r, boolList E (i :: is) = ⟨i.time, bit i, 0⟩ :: r := ⟨_, rfl⟩

theorem boolList_wf {y : Signal} (h : WF y) :
    WF ⟨boolList y.endTime y.samples, y.beginTime, y.endTime⟩ := by
  obtain ⟨p, l, hx, hp⟩ := h.exists_cons
  obtain ⟨r, hr⟩ := boolList_cons y.endTime p l
  have hs : Sorted (p :: l) := hx ▸ h.sorted
  have hE : ∀ q ∈ p :: l, q.time ≤ y.endTime := hx ▸ h.le_end
  have hpw := boolList_pairwise (fun a b => a ≤ b) (fun _ _ => le_of_lt)
    (fun _ _ _ h1 h2 => h1.trans h2) hs hE hs
  refine ⟨⟨?_, ?_, ?_, ?_⟩, ?_⟩
  · simp [hx, hr]
  · simp [hx, hr, hp]
  · simp only [hx]
    exact hpw
  · intro q hq
    simp only [hx] at hq
    exact (boolList_from hs hE q hq).2
  · intro q hq
    simp only [hx] at hq
    have hl := (List.pairwise_cons.1 hs).2
    have hE' : ∀ q ∈ l, q.time ≤ y.endTime := fun q hq => hE q (by simp [hq])
    rw [boolList, boolPiece, List.cons_append, List.tail_cons] at hq
    rcases List.mem_append.1 hq with hq | hq
    · split_ifs at hq with hc
      · rw [List.mem_singleton] at hq
        subst hq
        rw [← hp]
        exact zeroOf_gt hc
      · simp at hq
    · have hq' := (boolList_from hl hE' q hq).1
      cases l with
      | nil => simp [boolList] at hq
      | cons n r => exact (h.strict n (by simp [hx])).trans_le hq'

theorem val_concat_lt {l : List Sample} {b : Sample} {τ : Pt} (h : τ < pl b.time) :
    val (l ++ [b]) τ = val l τ :=
  val_append_none l (by simpa using h)

theorem computeBoolean_spec {y : Signal} (h : WF y) :
    ∃ b p r, computeBoolean y = .ok b ∧ b.beginTime = y.beginTime ∧ b.endTime = y.endTime ∧
      boolList y.endTime y.samples = p :: r ∧ b.samples <+: (p :: dedupFrom p r) ∧
      (∀ τ, τ < pl y.endTime → val b.samples τ = val (p :: r) τ) := by
  have hw := boolList_wf h
  obtain ⟨p, r, hx, hp⟩ := hw.exists_cons
  simp only at hx hp
  obtain ⟨z, z1, z2, z3, z4, z5, _⟩ := simplify_spec' hw
  have hloop := simplifyLoop_eq y.beginTime r [] p (r.length + 1) (by omega)
    ⟨p, [], rfl, hp⟩ (fun q hq => (hw.strict q (by simp [hx, hq])).ne')
  simp only [List.nil_append] at hloop
  rw [simplify.eq_def] at z1
  simp only [hx] at z1
  rw [hloop] at z1
  simp only [bind, Except.bind] at z1
  obtain ⟨c, hc⟩ : ∃ c, (p :: dedupFrom p r).getLast? = some c := by simp [List.getLast?_cons]
  obtain ⟨d, hd⟩ := getLast?_eq_some_append hc
  simp only [hc] at z1
  have hb : computeBoolean y = match z.samples.getLast? with
      | some b => if b.time = z.endTime then .ok { z with samples := z.samples.dropLast } else .ok z
      | none => .ok z := by
    rw [computeBoolean, booleanLoop_eq]
    simp only [bind, Except.bind, simplify.eq_def, hx]
    rw [hloop]
    simp only [hc]
    simp only [z1]
    rfl
  simp only [hx] at z2 z3 z5
  by_cases ht : c.time < y.endTime
  · rw [if_pos ht] at z1
    injection z1 with z1
    subst z1
    simp only [List.getLast?_concat, if_true, List.dropLast_concat] at hb
    refine ⟨_, p, r, hb, rfl, rfl, hx, List.prefix_rfl, fun τ hτ => ?_⟩
    rw [← z5 τ hτ.le]
    exact (val_concat_lt hτ).symm
  · rw [if_neg ht] at z1
    injection z1 with z1
    subst z1
    have hce : c.time = y.endTime := by
      have : c ∈ p :: r := by
        have : c ∈ p :: dedupFrom p r := List.mem_of_getLast? hc
        rcases List.mem_cons.1 this with h | h
        · simp [h]
        · simp [(dedupFrom_sub r p).subset h]
      exact le_antisymm (hw.le_end c (by simpa [hx] using this)) (not_lt.1 ht)
    simp only [hc, hce, if_true] at hb
    refine ⟨_, p, r, hb, rfl, rfl, hx, List.dropLast_prefix _, fun τ hτ => ?_⟩
    rw [← z5 τ hτ.le]
    simp only [hd, List.dropLast_concat]
    exact (val_concat_lt (by rwa [hce])).symm

theorem computeBoolean_val {y : Signal} (h : WF y)
    (h0 : ∀ p ∈ y.samples, ¬ (p.value = 0 ∧ 0 < p.derivative)) :
    ∃ b, computeBoolean y = .ok b ∧ b.beginTime = y.beginTime ∧ b.endTime = y.endTime ∧
      ∀ t, y.beginTime ≤ t → t < y.endTime → ∃ p, cur y.samples (pl t) = some p ∧
        val b.samples (pl t) = some (if trueAt p t then 1 else 0) := by
  obtain ⟨b, p, r, h1, h2, h3, h4, _, h6⟩ := computeBoolean_spec h
  refine ⟨b, h1, h2, h3, fun t ht1 ht2 => ?_⟩
  obtain ⟨q, l, hx, hq⟩ := h.exists_cons
  have : cur y.samples (pl t) ≠ none := by
    intro hn
    rw [cur_eq_none] at hn
    have := hn q (by simp [hx])
    simp at this
    linarith
  obtain ⟨p', hp'⟩ := Option.ne_none_iff_exists'.1 this
  refine ⟨p', hp', ?_⟩
  rw [h6 _ (by simpa using ht2), ← h4]
  exact boolList_val ht2 h.sorted h.le_end h0 p' hp'

/-- The sample in force splits the list. -/
theorem cur_splits : ∀ {l : List Sample} {τ : Pt} {q : Sample}, Sorted l → cur l τ = some q →
    ∃ A B, l = A ++ q :: B ∧ pl q.time ≤ τ ∧ ∀ b ∈ B, τ < pl b.time := by
  intro l
  induction l with
  | nil => intro τ q _ h; simp [cur] at h
  | cons p l ih =>
    intro τ q hs h
    rw [cur] at h
    cases hc : cur l τ with
    | some q' =>
      simp only [hc, Option.some_or] at h
      injection h with h
      subst h
      obtain ⟨A, B, e, h1, h2⟩ := ih (List.pairwise_cons.1 hs).2 hc
      exact ⟨p :: A, B, by simp [e], h1, h2⟩
    | none =>
      simp only [hc, Option.none_or] at h
      split_ifs at h with hp
      injection h with h
      subst h
      refine ⟨[], l, rfl, by simpa using hp, fun b hb => ?_⟩
      have := cur_eq_none.1 hc b hb
      simpa using this

theorem cur_of_split {A B : List Sample} {q : Sample} {τ : Pt} (h1 : pl q.time ≤ τ)
    (h2 : ∀ b ∈ B, τ < pl b.time) : cur (A ++ q :: B) τ = some q := by
  have : cur B τ = none := cur_eq_none.2 h2
  simp [cur_append, cur, this, h1]

/-! ## Left time robustness -/

/-- The signal is true at `t`. -/
def Holds (y : Signal) (t : ℚ) : Prop := ∃ p, cur y.samples (pl t) = some p ∧ trueAt p t

theorem chain_append {α : Type*} {R : α → α → Prop} {A B : List α} {a b : α}
    (h : (A ++ a :: b :: B).IsChain R) : R a b := by
  have := (List.isChain_append.1 h).2.1
  exact (List.isChain_cons_cons.1 this).1

theorem leftTimeRob_spec {y : Signal} (h : WF y)
    (hs : y.samples.Pairwise fun p q => p.time < q.time)
    (h0 : ∀ p ∈ y.samples, ¬ (p.value = 0 ∧ 0 < p.derivative)) :
    ∃ z, computeLeftTimeRob y = .ok z ∧ z.beginTime = y.beginTime ∧ z.endTime = y.endTime ∧
      ∀ t, y.beginTime ≤ t → t < y.endTime → ∃ c, y.beginTime ≤ c ∧ c ≤ t ∧
        (Holds y t → val z.samples (pl t) = some (tol + (t - c))) ∧
        (¬ Holds y t → val z.samples (pl t) = some (-(tol + (t - c)))) ∧
        (∀ s, c ≤ s → s ≤ t → (Holds y s ↔ Holds y t)) ∧
        (c = y.beginTime ∨ ∃ e, y.beginTime ≤ e ∧ e < c ∧
          ∀ s, e ≤ s → s < c → (Holds y s ↔ ¬ Holds y t)) := by
  obtain ⟨b, p, r, h1, h2, h3, h4, h5, h6⟩ := computeBoolean_spec h
  obtain ⟨b', h1', -, -, hv⟩ := computeBoolean_val h h0
  obtain rfl : b = b' := by rw [h1] at h1'; exact Except.ok.inj h1'
  have hz : computeLeftTimeRob y = .ok ⟨b.samples.map fun p =>
      if 0 < p.value then ⟨p.time, tol, 1⟩ else ⟨p.time, -tol, -1⟩, y.beginTime, y.endTime⟩ := by
    rw [computeLeftTimeRob, h1]; rfl
  refine ⟨_, hz, rfl, rfl, fun t ht1 ht2 => ?_⟩
  have hlist : (boolList y.endTime y.samples).Pairwise fun p q => p.time < q.time :=
    boolList_pairwise (fun a b => a < b) (fun _ _ => id) (fun _ _ _ => lt_of_lt_of_le) h.sorted
      h.le_end hs
  have hsub : b.samples.Sublist (boolList y.endTime y.samples) := by
    rw [h4]
    exact h5.sublist.trans ((dedupFrom_sub r p).cons_cons p)
  have hstr := hlist.sublist hsub
  have hbit : ∀ q ∈ b.samples, (q.value = 0 ∨ q.value = 1) ∧ q.derivative = 0 :=
    fun q hq => boolList_mem (hsub.subset hq)
  have halt : Alternates b.samples := by
    obtain ⟨e, he⟩ := h5
    have := dedupFrom_chain r p
    rw [← he] at this
    exact (List.isChain_append.1 this).1
  -- truth through the Boolean signal
  have htruth : ∀ s q, y.beginTime ≤ s → s < y.endTime → cur b.samples (pl s) = some q →
      (Holds y s ↔ q.value = 1) := by
    intro s q hs1 hs2 hq
    obtain ⟨p', hp', hval⟩ := hv s hs1 hs2
    rw [val, hq] at hval
    have hd := hbit q (cur_mem hq).1
    simp only [Option.map_some, Sample.valueAt, hd.2, pl_time, zero_mul, add_zero,
      Option.some.injEq] at hval
    rw [hval, Holds, hp']
    constructor
    · rintro ⟨p'', e, ht⟩
      cases e
      rw [if_pos ht]
    · intro ht
      refine ⟨p', rfl, ?_⟩
      by_contra hn
      rw [if_neg hn] at ht
      norm_num at ht
  obtain ⟨q, hq⟩ : ∃ q, cur b.samples (pl t) = some q := by
    obtain ⟨p', _, hval⟩ := hv t ht1 ht2
    rw [val, Option.map_eq_some_iff] at hval
    exact ⟨_, hval.choose_spec.1⟩
  have hsorted : Sorted b.samples := hstr.imp le_of_lt
  obtain ⟨A, B, e, hq1, hB⟩ := cur_splits hsorted hq
  have hq1' : q.time ≤ t := by simpa using hq1
  have hB' : ∀ x ∈ B, t < x.time := fun x hx => by simpa using hB x hx
  have hwb := boolList_wf h
  have hqb : y.beginTime ≤ q.time := by
    have hm : q ∈ boolList y.endTime y.samples := hsub.subset (by rw [e]; simp)
    obtain ⟨p0, l0, hx, hp0⟩ := hwb.exists_cons
    simp only at hx hp0
    have hso := hwb.sorted
    simp only [hx] at hso hm
    rcases List.mem_cons.1 hm with rfl | hm
    · exact hp0.ge
    · rw [← hp0]; exact (List.pairwise_cons.1 hso).1 q hm
  have hqt := htruth t q ht1 ht2 hq
  have hconst : ∀ s, q.time ≤ s → s ≤ t → (Holds y s ↔ Holds y t) := by
    intro s hs1 hs2
    rw [hqt]
    refine htruth s q (hqb.trans hs1) (by linarith) ?_
    rw [e]
    exact cur_of_split (by simpa using hs1) fun x hx => by
      have := hB' x hx
      simp
      linarith
  have hval : ∀ f : Sample → Sample, (∀ s, (f s).time = s.time) →
      val (b.samples.map f) (pl t) = some ((f q).valueAt t) := by
    intro f hf
    rw [e, List.map_append, List.map_cons, val, cur_of_split (by rw [hf]; exact hq1)]
    · rfl
    · intro x hx
      obtain ⟨x', hx', rfl⟩ := List.mem_map.1 hx
      rw [hf]
      exact hB x' hx'
  have hbq := (hbit q (by rw [e]; simp)).1
  refine ⟨q.time, hqb, hq1', ?_, ?_, hconst, ?_⟩
  · intro hh
    rw [hval]
    · simp [hqt.1 hh, Sample.valueAt]
    · intro s; split_ifs <;> rfl
  · intro hh
    have hz : q.value = 0 := by
      rcases hbq with h | h
      · exact h
      · exact absurd (hqt.2 h) hh
    rw [hval]
    · simp [hz, Sample.valueAt]
      ring
    · intro s; split_ifs <;> rfl
  · rcases List.eq_nil_or_concat A with rfl | ⟨A', q', rfl⟩
    · left
      obtain ⟨f, hf⟩ := h5
      rw [e] at hf
      simp only [List.nil_append, List.cons_append, List.cons.injEq] at hf
      have := hwb.head p (by simp [h4])
      simp only at this
      rw [hf.1, this]
    · right
      have e' : b.samples = A' ++ q' :: q :: B := by rw [e]; simp
      have hlt : q'.time < q.time := by
        rw [e'] at hstr
        exact (List.pairwise_cons.1 (List.pairwise_append.1 hstr).2.1).1 q (by simp)
      have hbq' := hbit q' (by rw [e']; simp)
      have hd := (hbit q (by rw [e]; simp)).2
      have hne : q'.value ≠ q.value := by
        rw [e'] at halt
        have := chain_append halt
        intro hv
        apply this
        exact ⟨by simp [Sample.valueAt, hbq'.2, hv], by rw [hbq'.2, hd]⟩
      have hq'b : y.beginTime ≤ q'.time := by
        have hm : q' ∈ boolList y.endTime y.samples := hsub.subset (by rw [e']; simp)
        obtain ⟨p0, l0, hx, hp0⟩ := hwb.exists_cons
        simp only at hx hp0
        have hso := hwb.sorted
        simp only [hx] at hso hm
        rcases List.mem_cons.1 hm with rfl | hm
        · exact hp0.ge
        · rw [← hp0]; exact (List.pairwise_cons.1 hso).1 q' hm
      refine ⟨q'.time, hq'b, hlt, fun s hs1 hs2 => ?_⟩
      rw [htruth s q' (hq'b.trans hs1) (by linarith) (by
        rw [e']
        refine cur_of_split (by simpa using hs1) ?_
        intro x hx
        rcases List.mem_cons.1 hx with rfl | hx
        · simpa using hs2
        · have := hB' x hx
          simp
          linarith), hqt]
      rcases hbq with h | h <;> rcases hbq'.1 with h' | h' <;> rw [h, h'] at hne ⊢ <;> simp at hne ⊢

/-! ## Truth just after a time -/

theorem holds_iff {y : Signal} (h : Sorted y.samples) (t : ℚ) :
    Holds y t ↔ (∃ v, val y.samples (pl t) = some v) ∧
      ∃ ε > 0, ∀ s, t < s → s < t + ε → ∃ v, val y.samples (pl s) = some v ∧ 0 < v := by
  constructor
  · rintro ⟨p, hp, ht⟩
    refine ⟨⟨p.valueAt t, by rw [val, hp]; rfl⟩, ?_⟩
    obtain ⟨A, B, e, h1, h2⟩ := cur_splits h hp
    have hgap : ∃ δ > 0, ∀ x ∈ B, t + δ ≤ x.time := by
      cases B with
      | nil => exact ⟨1, one_pos, by simp⟩
      | cons x B =>
        have hx := h2 x (by simp)
        simp at hx
        refine ⟨x.time - t, by linarith, fun z hz => ?_⟩
        have : x.time ≤ z.time := by
          rcases List.mem_cons.1 hz with rfl | hz
          · exact le_rfl
          · rw [e] at h
            exact (List.pairwise_cons.1 (List.pairwise_cons.1 (List.pairwise_append.1 h).2.1).2).1 z hz
        linarith
    obtain ⟨δ, hδ, hB⟩ := hgap
    have hv : ∀ s, t < s → s < t + δ → val y.samples (pl s) = some (p.valueAt t + p.derivative * (s - t)) := by
      intro s hs1 hs2
      have h1' : p.time ≤ t := by simpa using h1
      rw [val, e, cur_of_split (by simp; linarith) (fun x hx => by
        have := hB x hx
        simp
        linarith)]
      simp [Sample.valueAt]
      ring
    rcases ht with ht | ⟨ht, hd⟩
    · by_cases hd : 0 ≤ p.derivative
      · refine ⟨δ, hδ, fun s hs1 hs2 => ⟨_, hv s hs1 hs2, ?_⟩⟩
        have := mul_nonneg hd (show 0 ≤ s - t by linarith)
        linarith
      · push Not at hd
        refine ⟨min δ (p.valueAt t / (-p.derivative)), lt_min hδ (div_pos ht (by linarith)),
          fun s hs1 hs2 => ⟨_, hv s hs1 (hs2.trans_le (by have := min_le_left δ (p.valueAt t / (-p.derivative)); linarith)), ?_⟩⟩
        have h3 : s - t < p.valueAt t / (-p.derivative) := by
          have := min_le_right δ (p.valueAt t / (-p.derivative))
          linarith
        rw [lt_div_iff₀ (by linarith)] at h3
        linarith
    · refine ⟨δ, hδ, fun s hs1 hs2 => ⟨_, hv s hs1 hs2, ?_⟩⟩
      have := mul_pos hd (show 0 < s - t by linarith)
      linarith
  · rintro ⟨⟨v, hv⟩, ε, hε, hpos⟩
    rw [val, Option.map_eq_some_iff] at hv
    obtain ⟨p, hp, rfl⟩ := hv
    refine ⟨p, hp, ?_⟩
    obtain ⟨A, B, e, h1, h2⟩ := cur_splits h hp
    have hgap : ∃ δ > 0, ∀ x ∈ B, t + δ ≤ x.time := by
      cases B with
      | nil => exact ⟨1, one_pos, by simp⟩
      | cons x B =>
        have hx := h2 x (by simp)
        simp at hx
        refine ⟨x.time - t, by linarith, fun z hz => ?_⟩
        have : x.time ≤ z.time := by
          rcases List.mem_cons.1 hz with rfl | hz
          · exact le_rfl
          · rw [e] at h
            exact (List.pairwise_cons.1 (List.pairwise_cons.1 (List.pairwise_append.1 h).2.1).2).1 z hz
        linarith
    obtain ⟨δ, hδ, hB⟩ := hgap
    have hv : ∀ s, t < s → s < t + δ → val y.samples (pl s) = some (p.valueAt t + p.derivative * (s - t)) := by
      intro s hs1 hs2
      have h1' : p.time ≤ t := by simpa using h1
      rw [val, e, cur_of_split (by simp; linarith) (fun x hx => by
        have := hB x hx
        simp
        linarith)]
      simp [Sample.valueAt]
      ring
    have hall : ∀ u, 0 < u → u < min δ ε → 0 < p.valueAt t + p.derivative * u := by
      intro u hu1 hu2
      obtain ⟨v, hv1, hv2⟩ := hpos (t + u) (by linarith)
        (by have := min_le_right δ ε; linarith)
      rw [hv _ (by linarith) (by have := min_le_left δ ε; linarith)] at hv1
      injection hv1 with hv1
      rw [← hv1] at hv2
      simpa using hv2
    have hm : 0 < min δ ε := lt_min hδ hε
    by_contra hn
    unfold trueAt at hn
    push Not at hn
    obtain ⟨n1, n2⟩ := hn
    rcases n1.eq_or_lt with n1 | n1
    · have := hall (min δ ε / 2) (by linarith) (by linarith)
      have := mul_nonpos_of_nonpos_of_nonneg (n2 n1) (show 0 ≤ min δ ε / 2 by linarith)
      linarith
    · by_cases hd : p.derivative ≤ 0
      · have := hall (min δ ε / 2) (by linarith) (by linarith)
        have := mul_nonpos_of_nonpos_of_nonneg hd (show 0 ≤ min δ ε / 2 by linarith)
        linarith
      · push Not at hd
        have hu : 0 < -p.valueAt t / p.derivative := div_pos (by linarith) hd
        set u := min (min δ ε / 2) (-p.valueAt t / p.derivative) with hu'
        have hu1 : 0 < u := lt_min (by linarith) hu
        have hu2 : u < min δ ε := (min_le_left _ _).trans_lt (by linarith)
        have h3 : u ≤ -p.valueAt t / p.derivative := min_le_right _ _
        rw [le_div_iff₀ hd] at h3
        have := hall u hu1 hu2
        linarith

end STLRom
