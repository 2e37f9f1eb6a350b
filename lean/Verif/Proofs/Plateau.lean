import Verif.Proofs.Ev

/-!
# The sliding-window maximum over a list of peaks
-/

namespace STLRom
open Signal

/-- Point `p` lies in the window `(τ, τ + a]`. -/
def Live (a : ℚ) (τ : Pt) (p : Point) : Prop := τ < pl p.time ∧ pl p.time ≤ τ.shift a

/-- `v` is the greatest value of the points in the window after `τ`, or `-B` if there is none. -/
def PeakVal (B a : ℚ) (y : List Point) (τ : Pt) (v : ℚ) : Prop :=
  (∃ p ∈ y, Live a τ p ∧ p.value = v ∧ ∀ q ∈ y, Live a τ q → q.value ≤ v) ∨
  (v = -B ∧ ∀ p ∈ y, ¬ Live a τ p)

/-- A candidate list: strictly decreasing values, non-decreasing times. -/
def Cand (e : ℚ) (m : List Point) : Prop :=
  m.Pairwise fun p q => q.value < p.value ∧ p.time ≤ q.time ∧ (p.time < q.time ∨ p.time = e)

def PSorted (y : List Point) : Prop := y.Pairwise fun p q => p.time ≤ q.time

theorem popMax_split (v : ℚ) (m : List Point) :
    ∃ r, m = popMax v m ++ r ∧ ∀ p ∈ r, p.value ≤ v := by
  refine ⟨(m.reverse.takeWhile fun p => decide (p.value ≤ v)).reverse, ?_, ?_⟩
  · unfold popMax
    rw [← List.reverse_append, List.takeWhile_append_dropWhile, List.reverse_reverse]
  · intro p hp
    have := List.all_takeWhile (p := fun p : Point => decide (p.value ≤ v)) (l := m.reverse)
    rw [List.all_eq_true] at this
    simpa using this p (List.mem_reverse.1 hp)

theorem popMax_last {v : ℚ} {m : List Point} {q : Point} (h : (popMax v m).getLast? = some q) :
    v < q.value := by
  unfold popMax at h
  rw [List.getLast?_reverse] at h
  have := List.head?_dropWhile_not (p := fun p : Point => decide (p.value ≤ v)) (l := m.reverse)
  rw [h] at this
  simpa using this

theorem popMax_mem_lt {e v : ℚ} {m : List Point} (hm : Cand e m) :
    ∀ p ∈ popMax v m, v < p.value := by
  obtain ⟨r, hr, _⟩ := popMax_split v m
  have hc : Cand e (popMax v m) := by
    rw [hr] at hm; exact (List.pairwise_append.1 hm).1
  rcases hl : (popMax v m).getLast? with _ | q
  · rw [List.getLast?_eq_none_iff] at hl
    simp [hl]
  · have hv := popMax_last hl
    obtain ⟨l, hl'⟩ := List.getLast?_eq_some_iff.1 hl
    intro p hp
    rw [hl'] at hp hc
    rcases List.mem_append.1 hp with hp | hp
    · exact hv.trans ((List.pairwise_append.1 hc).2.2 p hp q (by simp)).1
    · simp at hp; rw [hp]; exact hv

/-- The points come ordered; points at equal times never increase, and agree before `e`. -/
def Tidy (e : ℚ) (y : List Point) : Prop :=
  y.Pairwise fun p q => p.time = q.time → q.value ≤ p.value ∧ (p.time < e → q.value = p.value)

/-- Candidates after a point enters. -/
theorem cand_push {e : ℚ} {m : List Point} {i : Point} (hm : Cand e m)
    (ht : ∀ p ∈ m, p.time ≤ i.time)
    (hs : ∀ p ∈ m, i.value < p.value → p.time < i.time ∨ p.time = e) :
    Cand e (popMax i.value m ++ [i]) := by
  obtain ⟨r, hr, _⟩ := popMax_split i.value m
  have hsub : ∀ p ∈ popMax i.value m, p ∈ m := by
    intro p hp; rw [hr]; exact List.mem_append_left _ hp
  refine List.pairwise_append.2 ⟨?_, by simp, ?_⟩
  · rw [hr] at hm; exact (List.pairwise_append.1 hm).1
  · intro p hp q hq
    simp at hq; subst hq
    have := popMax_mem_lt hm p hp
    exact ⟨this, ht p (hsub p hp), hs p (hsub p hp) this⟩

/-- Every point of `c` later than `t` is dominated by a candidate. -/
def Dom (t : ℚ) (c m : List Point) : Prop :=
  ∀ q ∈ c, t < q.time → ∃ p ∈ m, q.value ≤ p.value ∧ q.time ≤ p.time

theorem dom_push {t : ℚ} {c m : List Point} {i : Point} (h : Dom t c m)
    (ht : ∀ p ∈ m, p.time ≤ i.time) : Dom t (c ++ [i]) (popMax i.value m ++ [i]) := by
  obtain ⟨r, hr, hr'⟩ := popMax_split i.value m
  intro q hq hqt
  rcases List.mem_append.1 hq with hq | hq
  · obtain ⟨p, hp, h1, h2⟩ := h q hq hqt
    rw [hr] at hp
    rcases List.mem_append.1 hp with hp | hp
    · exact ⟨p, by simp [hp], h1, h2⟩
    · exact ⟨i, by simp, h1.trans (hr' p hp),
        h2.trans (ht p (by rw [hr]; exact List.mem_append_right _ hp))⟩
  · simp at hq; subst hq
    exact ⟨q, by simp, le_rfl, le_rfl⟩

theorem frontVal_ge {B e : ℚ} {m : List Point} (hm : Cand e m) {p : Point} (hp : p ∈ m) :
    p.value ≤ frontVal (-B) m := by
  cases m with
  | nil => simp at hp
  | cons q m =>
    rcases List.mem_cons.1 hp with rfl | hp
    · exact le_rfl
    · exact ((List.pairwise_cons.1 hm).1 p hp).1.le

/-- Between two events the announced value is the maximum of the window. -/
theorem peakVal_of_state {B a e t : ℚ} {y c is m : List Point} {τ : Pt}
    (hy : y = c ++ is) (hm : Cand e m) (hsub : ∀ p ∈ m, p ∈ c) (hdom : Dom t c m)
    (hca : ∀ p ∈ c, p.time ≤ t + a) (hτ : pl t ≤ τ)
    (his : ∀ p ∈ is, pl p.time ≤ τ.shift a → ∃ q ∈ m, p.value ≤ q.value)
    (hlive : ∀ p ∈ m, τ < pl p.time) :
    PeakVal B a y τ (frontVal (-B) m) := by
  have hub : ∀ q ∈ y, Live a τ q → ∃ p ∈ m, q.value ≤ p.value := by
    intro q hq hl
    rw [hy] at hq
    rcases List.mem_append.1 hq with hq | hq
    · have : t < q.time := by
        have := lt_of_le_of_lt hτ hl.1
        simpa using this
      obtain ⟨p, hp, h1, _⟩ := hdom q hq this
      exact ⟨p, hp, h1⟩
    · exact his q hq hl.2
  cases m with
  | nil =>
    right
    refine ⟨rfl, fun p hp hl => ?_⟩
    obtain ⟨q, hq, _⟩ := hub p hp hl
    simp at hq
  | cons p m =>
    left
    have hpc := hsub p (by simp)
    refine ⟨p, by rw [hy]; exact List.mem_append_left _ hpc, ⟨hlive p (by simp), ?_⟩, rfl, ?_⟩
    · have h1 := hca p hpc
      have h2 : pl (t + a) ≤ τ.shift a := by
        have : (pl t).shift a ≤ τ.shift a := by
          rw [Pt.shift_le_iff, Pt.shift_shift]; simpa using hτ
        exact this
      exact le_trans (by simpa using h1) h2
    · intro q hq hl
      obtain ⟨p', hp', h⟩ := hub q hq hl
      exact h.trans (frontVal_ge (B := B) hm hp')

/-- The times of the points are strictly increasing until `e`. -/
def YStrict (e : ℚ) (y : List Point) : Prop := y.Pairwise fun p q => p.time < q.time ∨ p.time = e

/-- State at the head of the loop. -/
structure PInv (B a b e : ℚ) (y m is : List Point) (z : List Sample) (t : ℚ)
    (newC endC : Bool) : Prop where
  split : ∃ c, y = c ++ is ∧ (∀ p ∈ m, p ∈ c) ∧ Dom t c m ∧ (∀ p ∈ c, p.time ≤ t + a)
  cand : Cand e m
  mt : ∀ p ∈ m, t ≤ p.time
  ist : ∀ p ∈ is, t + a ≤ p.time
  newT : newC = true → ∃ i is', is = i :: is' ∧ i.time = t + a
  newF : newC = false → ∀ p ∈ is, t + a < p.time
  endT : endC = true → ∃ p m', m = p :: m' ∧ p.time = t
  endF : endC = false → b < t → ∀ p ∈ m, t < p.time
  bt : b ≤ t
  te : t ≤ e
  /-- the output, most recent first -/
  zsorted : z.Pairwise fun p q => q.time ≤ p.time
  zt : ∀ p ∈ z, b ≤ p.time ∧ p.time ≤ t
  zfirst : z = [] ∧ t = b ∨ ∃ p, z.getLast? = some p ∧ p.time = b
  zval : ∀ τ, pl b ≤ τ → τ ≤ mi t → ∃ v, val z.reverse τ = some v ∧ PeakVal B a y τ v
  zvc : ∀ p ∈ z, b < p.time → p.time < e → PeakVal B a y (pl p.time) p.value
  zder : ∀ p ∈ z, p.derivative = 0
  zlt : YStrict e y → ∀ q ∈ z, q.time < t ∨ t ≤ b ∨ t + a = e ∨ t = e
  zstrict : YStrict e y →
    z.Pairwise fun p q => q.time < p.time ∨ q.time ≤ b ∨ q.time + a = e ∨ q.time = e
  zcnt : ∀ T, b < T → y.countP (fun p => p.time = T + a) ≤
    z.countP (fun p => p.time = T) + is.countP (fun p => p.time = T + a)

/-- State once the event at `t` has been processed. -/
structure PPost (a b e : ℚ) (y m is : List Point) (t : ℚ) : Prop where
  split : ∃ c, y = c ++ is ∧ (∀ p ∈ m, p ∈ c) ∧ Dom t c m ∧ (∀ p ∈ c, p.time ≤ t + a)
  cand : Cand e m
  mt : ∀ p ∈ m, t ≤ p.time
  ist : ∀ p ∈ is, t + a ≤ p.time
  strict : b < t → t < e → ∀ p ∈ m, t < p.time
  dup : ∀ p ∈ is, p.time ≤ t + a → ∃ q ∈ m, p.value ≤ q.value
  nodup : YStrict e y → ∀ p ∈ is, p.time ≤ t + a → t + a = e

theorem val_snoc {l : List Sample} {p : Sample} {τ : Pt} (h : pl p.time ≤ τ) :
    val (l ++ [p]) τ = some (p.valueAt τ.time) := by
  simp [val, cur_append, cur, h]

theorem val_snoc_lt {l : List Sample} {p : Sample} {τ : Pt} (h : τ < pl p.time) :
    val (l ++ [p]) τ = val l τ := by
  simp [val, cur_append, cur, not_le.2 h]

/-- A candidate leaves. -/
theorem PInv.leave {B a b e t : ℚ} {y m is : List Point} {z : List Sample} {newC : Bool}
    {p : Point} (h : PInv B a b e y (p :: m) is z t newC true) :
    (∃ c, y = c ++ is ∧ (∀ p ∈ m, p ∈ c) ∧ Dom t c m ∧ (∀ p ∈ c, p.time ≤ t + a)) ∧
    Cand e m ∧ (∀ p ∈ m, t ≤ p.time) ∧ (t < e → ∀ p ∈ m, t < p.time) := by
  obtain ⟨p', m', hpm, hpt⟩ := h.endT rfl
  obtain ⟨rfl, rfl⟩ : p = p' ∧ m = m' := by simpa using hpm
  obtain ⟨c, h1, h2, h3, h4⟩ := h.split
  have hc := List.pairwise_cons.1 h.cand
  refine ⟨⟨c, h1, fun q hq => h2 q (by simp [hq]), ?_, h4⟩, hc.2, fun q hq => h.mt q (by simp [hq]),
    ?_⟩
  · intro q hq hqt
    obtain ⟨r, hr, h5, h6⟩ := h3 q hq hqt
    rcases List.mem_cons.1 hr with rfl | hr
    · rw [hpt] at h6; exact absurd hqt (not_lt.2 h6)
    · exact ⟨r, hr, h5, h6⟩
  · intro hte q hq
    rcases (hc.1 q hq).2.2 with h5 | h5
    · rw [← hpt]; exact h5
    · rw [hpt] at h5; exact absurd hte (by rw [h5]; exact lt_irrefl _)

/-- A point enters. -/
theorem enter {a b e t : ℚ} {y m is : List Point} {i : Point} (ha : 0 < a)
    (hyt : Tidy e y) (hle : ∀ p ∈ y, p.time ≤ e)
    (hs : ∃ c, y = c ++ i :: is ∧ (∀ p ∈ m, p ∈ c) ∧ Dom t c m ∧ (∀ p ∈ c, p.time ≤ t + a))
    (hc : Cand e m) (hmt : ∀ p ∈ m, t ≤ p.time) (hst : b < t → t < e → ∀ p ∈ m, t < p.time)
    (hit : i.time = t + a) (hist : ∀ p ∈ is, t + a ≤ p.time) :
    PPost a b e y (popMax i.value m ++ [i]) is t := by
  obtain ⟨c, h1, h2, h3, h4⟩ := hs
  obtain ⟨r, hr, hr'⟩ := popMax_split i.value m
  have hsub : ∀ p ∈ popMax i.value m, p ∈ m := by
    intro p hp; rw [hr]; exact List.mem_append_left _ hp
  have hti : ∀ p ∈ m, p.time ≤ i.time := fun p hp => by rw [hit]; exact h4 p (h2 p hp)
  refine ⟨⟨c ++ [i], by simp [h1], ?_, dom_push h3 hti, ?_⟩, cand_push hc hti ?_, ?_, hist, ?_, ?_, ?_⟩
  · intro p hp
    rcases List.mem_append.1 hp with hp | hp
    · exact List.mem_append_left _ (h2 p (hsub p hp))
    · exact List.mem_append_right _ hp
  · intro p hp
    rcases List.mem_append.1 hp with hp | hp
    · exact h4 p hp
    · simp at hp; rw [hp, hit]
  · intro p hp hv
    rcases (hti p hp).lt_or_eq with h | h
    · exact Or.inl h
    · right
      unfold Tidy at hyt
      rw [h1] at hyt
      have := (List.pairwise_append.1 hyt).2.2 p (h2 p hp) i (by simp) h
      refine le_antisymm (hle p (by rw [h1]; exact List.mem_append_left _ (h2 p hp))) ?_
      by_contra hcon
      exact absurd (this.2 (not_le.1 hcon)) hv.ne
  · intro p hp
    rcases List.mem_append.1 hp with hp | hp
    · exact hmt p (hsub p hp)
    · simp at hp; rw [hp, hit]; linarith
  · intro hb he p hp
    rcases List.mem_append.1 hp with hp | hp
    · exact hst hb he p (hsub p hp)
    · simp at hp; rw [hp, hit]; linarith
  · intro p hp hpt
    refine ⟨i, by simp, ?_⟩
    unfold Tidy at hyt
    rw [h1] at hyt
    have h5 := (List.pairwise_append.1 hyt).2.1
    exact ((List.pairwise_cons.1 h5).1 p hp (by rw [hit]; exact le_antisymm (hist p hp) hpt)).1
  · intro hy p hp hpt
    unfold YStrict at hy
    rw [h1] at hy
    rcases (List.pairwise_cons.1 (List.pairwise_append.1 hy).2.1).1 p hp with h | h
    · rw [hit] at h
      exact absurd h (not_lt.2 hpt)
    · rw [← hit, h]

/-- The state at the next event. -/
theorem PPost.next {B a b e t t' : ℚ} {y m0 is0 m is : List Point} {z : List Sample}
    {nc ec newC endC : Bool}
    (h : PPost a b e y m is t) (hI : PInv B a b e y m0 is0 z t nc ec)
    (htt : t ≤ t') (hm : ∀ p ∈ m, t' ≤ p.time) (his : ∀ p ∈ is, t' + a ≤ p.time)
    (newT : newC = true → ∃ i is', is = i :: is' ∧ i.time = t' + a)
    (newF : newC = false → ∀ p ∈ is, t' + a < p.time)
    (endT : endC = true → ∃ p m', m = p :: m' ∧ p.time = t')
    (endF : endC = false → ∀ p ∈ m, t' < p.time) (te : t' ≤ e)
    (hcnt : ∀ T, is0.countP (fun p => p.time = T + a) ≤
      is.countP (fun p => p.time = T + a) + if T = t then 1 else 0)
    (hf : (newC || endC) = true) :
    PInv B a b e y m is (⟨t, frontVal (-B) m, 0⟩ :: z) t' newC endC := by
  obtain ⟨c, h1, h2, h3, h4⟩ := h.split
  have hlt : YStrict e y → t < t' ∨ t' ≤ b ∨ t' + a = e ∨ t' = e := by
    intro hy
    rcases htt.lt_or_eq with h' | rfl
    · exact Or.inl h'
    · right
      rw [Bool.or_eq_true] at hf
      rcases hf with hf | hf
      · obtain ⟨i, is', hi, hit⟩ := newT hf
        exact Or.inr (Or.inl (h.nodup hy i (by simp [hi]) hit.le))
      · obtain ⟨p, m', hp, hpt⟩ := endT hf
        by_contra hcon
        push Not at hcon
        have := h.strict hcon.1 (lt_of_le_of_ne hI.te hcon.2.2) p (by simp [hp])
        exact absurd hpt this.ne'
  refine ⟨⟨c, h1, h2, fun q hq hqt => h3 q hq (htt.trans_lt hqt), fun p hp => (h4 p hp).trans
    (by linarith)⟩, h.cand, hm, his, newT, newF, endT, fun h _ => endF h, hI.bt.trans htt, te,
    ?_, ?_, ?_, ?_, ?_, ?_, ?_, ?_, ?_⟩
  · exact List.pairwise_cons.2 ⟨fun p hp => (hI.zt p hp).2, hI.zsorted⟩
  · intro p hp
    rcases List.mem_cons.1 hp with rfl | hp
    · exact ⟨hI.bt, htt⟩
    · exact ⟨(hI.zt p hp).1, (hI.zt p hp).2.trans htt⟩
  · right
    rcases hI.zfirst with ⟨hz, hb⟩ | ⟨p, hp, hpb⟩
    · exact ⟨⟨t, frontVal (-B) m, 0⟩, by simp [hz], hb⟩
    · cases z with
      | nil => simp at hp
      | cons q z => exact ⟨p, by simpa [List.getLast?_cons_cons] using hp, hpb⟩
  · intro τ a1 a2
    rw [List.reverse_cons]
    rcases le_or_gt (pl t) τ with h5 | h5
    · refine ⟨frontVal (-B) m, ?_, ?_⟩
      · rw [val_snoc h5]; simp [Sample.valueAt]
      · refine peakVal_of_state h1 h.cand h2 h3 h4 h5 ?_ ?_
        · intro p hp hpt
          exfalso
          have h6 : τ.shift a ≤ mi (t' + a) := by
            have : τ.shift a ≤ (mi t').shift a := by
              rw [Pt.shift_le_iff, Pt.shift_shift]; simpa using a2
            exact this
          have := hpt.trans h6
          have := his p hp
          simp at *
          linarith
        · intro p hp
          exact lt_of_le_of_lt a2 (by simpa using hm p hp)
    · rw [val_snoc_lt h5]
      exact hI.zval τ a1 (by
        rw [← not_lt, mi_lt_iff, not_le]; exact h5)
  · intro p hp hb he
    rcases List.mem_cons.1 hp with rfl | hp
    · refine peakVal_of_state h1 h.cand h2 h3 h4 le_rfl ?_ ?_
      · intro p hp hpt
        refine h.dup p hp ?_
        have : pl p.time ≤ pl (t + a) := hpt
        simpa using this
      · intro p hp
        simpa using h.strict hb he p hp
    · exact hI.zvc p hp hb he
  · intro p hp
    rcases List.mem_cons.1 hp with rfl | hp
    · rfl
    · exact hI.zder p hp
  · intro hy q hq
    refine (hlt hy).imp_left fun h' => ?_
    rcases List.mem_cons.1 hq with rfl | hq
    · exact h'
    · exact (hI.zt q hq).2.trans_lt h'
  · intro hy
    refine List.pairwise_cons.2 ⟨fun q hq => ?_, hI.zstrict hy⟩
    rcases (hI.zt q hq).2.lt_or_eq with h' | h'
    · exact Or.inl h'
    · have := hI.zlt hy q hq
      rwa [← h'] at this ⊢
  · intro T hT
    have := hI.zcnt T hT
    have h5 := hcnt T
    rw [List.countP_cons]
    by_cases hTt : T = t
    · subst hTt
      simp only [if_true] at h5
      simp only [decide_true, if_true]
      omega
    · rw [if_neg hTt] at h5
      simp only [decide_eq_true_eq, Ne.symm hTt, if_false]
      omega

/-- One pass of the loop body. -/
theorem PInv.body {B a b e t : ℚ} {y m is : List Point} {z : List Sample} {newC endC : Bool}
    (ha : 0 < a) (hyt : Tidy e y) (hle : ∀ p ∈ y, p.time ≤ e)
    (h : PInv B a b e y m is z t newC endC) :
    ∃ m1 m2 is2, popFront endC m = .ok m1 ∧ enterMax newC m1 is = .ok (m2, is2) ∧
      PPost a b e y m2 is2 t ∧
      2 * is2.length + m2.length ≤ 2 * is.length + m.length ∧
      ((newC || endC) = true → 2 * is2.length + m2.length < 2 * is.length + m.length) ∧
      ∀ T, is.countP (fun p => p.time = T + a) ≤
        is2.countP (fun p => p.time = T + a) + if T = t then 1 else 0 := by
  -- first the candidate that leaves
  obtain ⟨m1, hm1, hs, hc, hmt, hst, hlen, hlen'⟩ : ∃ m1, popFront endC m = .ok m1 ∧
      (∃ c, y = c ++ is ∧ (∀ p ∈ m1, p ∈ c) ∧ Dom t c m1 ∧ (∀ p ∈ c, p.time ≤ t + a)) ∧
      Cand e m1 ∧ (∀ p ∈ m1, t ≤ p.time) ∧ (b < t → t < e → ∀ p ∈ m1, t < p.time) ∧
      m1.length ≤ m.length ∧ (endC = true → m1.length < m.length) := by
    cases endC with
    | false =>
      exact ⟨m, rfl, h.split, h.cand, h.mt, fun hb _ => h.endF rfl hb, le_rfl, by simp⟩
    | true =>
      obtain ⟨p, m', hpm, _⟩ := h.endT rfl
      subst hpm
      obtain ⟨h1, h2, h3, h4⟩ := h.leave
      exact ⟨m', rfl, h1, h2, h3, fun _ => h4, by simp, by simp⟩
  refine ⟨m1, ?_⟩
  cases newC with
  | false =>
    refine ⟨m1, is, hm1, rfl, ⟨hs, hc, hmt, h.ist, hst, ?_, ?_⟩, by omega, ?_, fun T => by omega⟩
    · intro p hp hpt
      exact absurd (h.newF rfl p hp) (not_lt.2 hpt)
    · intro _ p hp hpt
      exact absurd (h.newF rfl p hp) (not_lt.2 hpt)
    · intro he
      have := hlen' (by simpa using he)
      omega
  | true =>
    obtain ⟨i, is', hi, hit⟩ := h.newT rfl
    subst hi
    have hpop : (popMax i.value m1).length ≤ m1.length := by
      obtain ⟨r, hr, _⟩ := popMax_split i.value m1
      conv_rhs => rw [hr]
      simp
    refine ⟨popMax i.value m1 ++ [i], is', hm1, rfl,
      enter ha hyt hle hs hc hmt hst hit (fun p hp => h.ist p (by simp [hp])), ?_, ?_, fun T => ?_⟩
    · simp; omega
    · intro _; simp; omega
    · rw [List.countP_cons, hit]
      by_cases hTt : T = t
      · simp [hTt]
      · have : ¬ t + a = T + a := fun h => hTt (by linarith)
        simp [hTt, this]

/-- The loop runs to the end and its output denotes the window maximum. -/
theorem plateauMaxLoop_spec {B a b e : ℚ} {y : List Point} (ha : 0 < a)
    (hys : PSorted y) (hyt : Tidy e y)
    (hlast : ∃ p ∈ y, p.time = e) (hle : ∀ p ∈ y, p.time ≤ e) :
    ∀ (n : ℕ) (m is : List Point) (z : List Sample) (t : ℚ) (newC endC : Bool),
      PInv B a b e y m is z t newC endC →
      2 * is.length + m.length + (if newC || endC then 0 else 1) < n →
      ∃ p z', plateauMaxLoop B a n m is z t newC endC = .ok (p :: z') ∧ p.time = e ∧
        ∃ m' is' nc ec, PInv B a b e y m' is' z' e nc ec
  | 0, _, _, _, _, _, _ => by simp
  | n + 1, m, is, z, t, newC, endC => by
    intro hI hn
    obtain ⟨m1, m2, is2, h1, h2, hP, hlen, hlen', hcnt⟩ := hI.body ha hyt hle
    have hn' : 2 * is2.length + m2.length < n := by
      cases hf : (newC || endC) with
      | true => have := hlen' hf; simp [hf] at hn; omega
      | false => simp [hf] at hn; omega
    obtain ⟨c, hy, hsub, hdom, hca⟩ := hP.split
    have hism : ∀ p ∈ is2, p ∈ y := fun p hp => by rw [hy]; exact List.mem_append_right _ hp
    have hmm : ∀ p ∈ m2, p ∈ y := fun p hp => by
      rw [hy]; exact List.mem_append_left _ (hsub p hp)
    have hiss : PSorted is2 := by
      unfold PSorted at hys; rw [hy] at hys; exact (List.pairwise_append.1 hys).2.1
    rw [plateauMaxLoop.eq_def]
    simp only [h1, h2, bind, Except.bind]
    have go := fun t' nc ec (hI' : PInv B a b e y m2 is2 (⟨t, frontVal (-B) m2, 0⟩ :: z) t' nc ec)
      (hf : (nc || ec) = true) =>
      plateauMaxLoop_spec ha hys hyt hlast hle n m2 is2 _ t' nc ec hI' (by
        rw [hf]; simpa using hn')
    have hle_m : ∀ p m', m2 = p :: m' → ∀ q ∈ m2, p.time ≤ q.time := by
      intro p m' hpm q hq
      have := hP.cand
      rw [hpm] at this hq
      rcases List.mem_cons.1 hq with rfl | hq
      · exact le_rfl
      · exact ((List.pairwise_cons.1 this).1 q hq).2.1
    have hle_i : ∀ i is', is2 = i :: is' → ∀ q ∈ is2, i.time ≤ q.time := by
      intro i is' hi q hq
      rw [hi] at hiss hq
      rcases List.mem_cons.1 hq with rfl | hq
      · exact le_rfl
      · exact (List.pairwise_cons.1 hiss).1 q hq
    rcases hm2 : m2 with _ | ⟨p, m'⟩ <;> rcases hi2 : is2 with _ | ⟨i, is'⟩ <;> simp only
    · -- finished
      refine ⟨_, z, rfl, ?_, ?_⟩
      · obtain ⟨q, hq, hqe⟩ := hlast
        rw [hy, hi2, List.append_nil] at hq
        show t = e
        refine le_antisymm hI.te ?_
        by_contra hcon
        obtain ⟨r, hr, _⟩ := hdom q hq (by rw [hqe]; exact not_le.1 hcon)
        rw [hm2] at hr; simp at hr
      · have hte : t = e := by
          obtain ⟨q, hq, hqe⟩ := hlast
          rw [hy, hi2, List.append_nil] at hq
          refine le_antisymm hI.te ?_
          by_contra hcon
          obtain ⟨r, hr, _⟩ := hdom q hq (by rw [hqe]; exact not_le.1 hcon)
          rw [hm2] at hr; simp at hr
        subst hte
        exact ⟨_, _, _, _, hI⟩
    · -- only points to come
      have hi := hP.ist i (by simp [hi2])
      have hiy := hle i (hism i (by simp [hi2]))
      rw [← hm2, ← hi2]
      refine go _ true false (hP.next hI (by linarith) ?_ ?_ ?_ (by simp) (by simp) ?_
        (by linarith) hcnt rfl) rfl
      · simp [hm2]
      · intro q hq
        have := hle_i i is' hi2 q hq
        linarith
      · exact fun _ => ⟨i, is', hi2, by ring⟩
      · simp [hm2]
    · -- only candidates
      have hp := hP.mt p (by simp [hm2])
      have hpy := hle p (hmm p (by simp [hm2]))
      rw [← hm2, ← hi2]
      refine go _ false true (hP.next hI hp (hle_m p m' hm2) (by simp [hi2]) (by simp)
        (by simp [hi2]) (fun _ => ⟨p, m', hm2, rfl⟩) (by simp) hpy hcnt rfl) rfl
    · have hi := hP.ist i (by simp [hi2])
      have hiy := hle i (hism i (by simp [hi2]))
      have hp := hP.mt p (by simp [hm2])
      have hpy := hle p (hmm p (by simp [hm2]))
      rw [← hm2, ← hi2]
      split_ifs with c1 c2
      · refine go _ true true (hP.next hI hp (hle_m p m' hm2) ?_ ?_ (by simp)
          (fun _ => ⟨p, m', hm2, rfl⟩) (by simp) hpy hcnt rfl) rfl
        · intro q hq
          have := hle_i i is' hi2 q hq
          linarith
        · exact fun _ => ⟨i, is', hi2, by linarith⟩
      · refine go _ true false (hP.next hI (by linarith) ?_ ?_ ?_ (by simp) (by simp) ?_
          (by linarith) hcnt rfl) rfl
        · intro q hq
          have := hle_m p m' hm2 q hq
          linarith
        · intro q hq
          have := hle_i i is' hi2 q hq
          linarith
        · exact fun _ => ⟨i, is', hi2, by ring⟩
        · intro _ q hq
          have := hle_m p m' hm2 q hq
          linarith
      · have c3 : p.time < i.time - a := lt_of_le_of_ne (not_lt.1 c2) (Ne.symm c1)
        refine go _ false true (hP.next hI hp (hle_m p m' hm2) ?_ (by simp) ?_
          (fun _ => ⟨p, m', hm2, rfl⟩) (by simp) hpy hcnt rfl) rfl
        · intro q hq
          have := hle_i i is' hi2 q hq
          linarith
        · intro _ q hq
          have := hle_i i is' hi2 q hq
          linarith

/-- The initial loop: points before `lim` enter. -/
theorem initMax_spec {b e lim : ℚ} {y : List Point} (hys : PSorted y) (hyt : Tidy e y)
    (hle : ∀ p ∈ y, p.time ≤ e) :
    ∀ (is m c : List Point), y = c ++ is → (∀ p ∈ m, p ∈ c) → Dom b c m → Cand e m →
      (∀ p ∈ c, p.time < lim) → (∃ p ∈ is, lim ≤ p.time) → m.length ≤ c.length →
      ∃ m' i is' c', initMax lim m is = .ok (m', i :: is') ∧ y = c' ++ i :: is' ∧
        (∀ p ∈ m', p ∈ c') ∧ Dom b c' m' ∧ Cand e m' ∧ (∀ p ∈ c', p.time < lim) ∧
        lim ≤ i.time ∧ m'.length ≤ c'.length
  | [], m, c => by simp
  | i :: is, m, c => by
    intro hy hsub hdom hc hlt hex hlen
    rw [initMax]
    split_ifs with h
    · obtain ⟨r, hr, hr'⟩ := popMax_split i.value m
      have hpm : ∀ p ∈ popMax i.value m, p ∈ m := by
        intro p hp; rw [hr]; exact List.mem_append_left _ hp
      have hti : ∀ p ∈ m, p.time ≤ i.time := by
        intro p hp
        unfold PSorted at hys
        rw [hy] at hys
        exact (List.pairwise_append.1 hys).2.2 p (hsub p hp) i (by simp)
      refine initMax_spec hys hyt hle is _ (c ++ [i]) (by simp [hy]) ?_ (dom_push hdom hti)
        (cand_push hc hti ?_) ?_ ?_ ?_
      · intro p hp
        rcases List.mem_append.1 hp with hp | hp
        · exact List.mem_append_left _ (hsub p (hpm p hp))
        · exact List.mem_append_right _ hp
      · intro p hp hv
        rcases (hti p hp).lt_or_eq with h | h
        · exact Or.inl h
        · right
          unfold Tidy at hyt
          rw [hy] at hyt
          have := (List.pairwise_append.1 hyt).2.2 p (hsub p hp) i (by simp) h
          refine le_antisymm (hle p (by rw [hy]; exact List.mem_append_left _ (hsub p hp))) ?_
          by_contra hcon
          exact absurd (this.2 (not_le.1 hcon)) hv.ne
      · intro p hp
        rcases List.mem_append.1 hp with hp | hp
        · exact hlt p hp
        · simp at hp; rw [hp]; exact h
      · obtain ⟨p, hp, hp'⟩ := hex
        rcases List.mem_cons.1 hp with rfl | hp
        · exact absurd h (not_lt.2 hp')
        · exact ⟨p, hp, hp'⟩
      · have : (popMax i.value m).length ≤ m.length := by
          conv_rhs => rw [hr]
          simp
        simp; omega
    · exact ⟨m, i, is, c, rfl, hy, hsub, hdom, hc, hlt, not_lt.1 h, hlen⟩

/-- The peaks of a signal, in time order. -/
def pk (B e : ℚ) : List Sample → List Point
  | [] => []
  | [s] => [⟨e, fmax (-B) (s.valueAt e)⟩]
  | s :: s' :: l => ⟨s'.time, fmax s'.value (s.valueAt s'.time)⟩ :: pk B e (s' :: l)

theorem peaksMax_snoc (s s' : Sample) : ∀ (js : List Sample) (t v : ℚ) (acc : List Point),
    peaksMax (js ++ [s', s]) t v acc =
      ⟨s'.time, fmax s'.value (s.valueAt s'.time)⟩ :: peaksMax (js ++ [s']) t v acc
  | [], t, v, acc => by simp [peaksMax]
  | j :: js, t, v, acc => by
    simp only [List.cons_append, peaksMax]
    exact peaksMax_snoc s s' js _ _ _

theorem peaksMax_eq (B e : ℚ) : ∀ l : List Sample, peaksMax l.reverse e (-B) [] = pk B e l
  | [] => rfl
  | [s] => rfl
  | s :: s' :: l => by
    rw [pk, ← peaksMax_eq B e (s' :: l)]
    simp only [List.reverse_cons, List.append_assoc, List.cons_append, List.nil_append]
    exact peaksMax_snoc s s' l.reverse e (-B) []

/-- The denotation of `plateauMax`, given tidy peaks, and the times of its samples. -/
theorem plateauMax_spec' {x : Signal} {B a : ℚ} {f : Sample} {l : List Sample}
    (hl : x.samples = f :: l) (hfb : f.time = x.beginTime) (ha : 0 < a)
    (hab : x.beginTime + a ≤ x.endTime)
    (hys : PSorted (pk B x.endTime x.samples))
    (hyt' : Tidy x.endTime (⟨f.time, f.value⟩ :: pk B x.endTime x.samples))
    (hyb : ∀ p ∈ pk B x.endTime x.samples, x.beginTime ≤ p.time ∧ p.time ≤ x.endTime)
    (hye : ∃ p ∈ pk B x.endTime x.samples, p.time = x.endTime) :
    ∃ z, plateauMax B x a = .ok z ∧ z.beginTime = x.beginTime ∧ z.endTime = x.endTime ∧ WF0 z ∧
      (∀ τ, pl x.beginTime ≤ τ → τ ≤ mi x.endTime →
        PeakVal B a (pk B x.endTime x.samples) τ (z.v τ)) ∧
      (∀ p ∈ z.samples, x.beginTime < p.time → p.time < x.endTime →
        PeakVal B a (pk B x.endTime x.samples) (pl p.time) p.value) ∧
      (∀ p ∈ z.samples, p.derivative = 0) ∧
      (YStrict x.endTime (⟨f.time, f.value⟩ :: pk B x.endTime x.samples) →
        z.samples.Pairwise fun p q => p.time < q.time ∨ p.time ≤ x.beginTime ∨
          p.time + a = x.endTime ∨ p.time = x.endTime) ∧
      (∀ T, x.beginTime < T → (pk B x.endTime x.samples).countP (fun p => p.time = T + a) ≤
        z.samples.countP (fun p => p.time = T)) := by
  have hbe : x.beginTime < x.endTime := by linarith
  set Y := pk B x.endTime x.samples with hY
  have hys' : PSorted (⟨f.time, f.value⟩ :: Y) :=
    List.pairwise_cons.2 ⟨fun p hp => by rw [hfb]; exact (hyb p hp).1, hys⟩
  have hle' : ∀ p ∈ (⟨f.time, f.value⟩ :: Y : List Point), p.time ≤ x.endTime := by
    intro p hp
    rcases List.mem_cons.1 hp with rfl | hp
    · show f.time ≤ _; rw [hfb]; exact hbe.le
    · exact (hyb p hp).2
  have hge' : ∀ p ∈ (⟨f.time, f.value⟩ :: Y : List Point), x.beginTime ≤ p.time := by
    intro p hp
    rcases List.mem_cons.1 hp with rfl | hp
    · exact hfb.ge
    · exact (hyb p hp).1
  obtain ⟨q, hq, hqe⟩ := hye
  obtain ⟨m, i, is, c, h1, h2, h3, h4, h5, h6, h7, h8⟩ :=
    initMax_spec (b := x.beginTime) (lim := x.beginTime + a) hys' hyt' hle'
      (⟨f.time, f.value⟩ :: Y) [] [] rfl (by simp) (by intro q hq; simp at hq)
      List.Pairwise.nil (by simp) ⟨q, by simp [hq], by rw [hqe]; exact hab⟩ le_rfl
  have hcy : ∀ p ∈ c, p ∈ (⟨f.time, f.value⟩ :: Y : List Point) := fun p hp => by
    rw [h2]; exact List.mem_append_left _ hp
  have hisge : ∀ p ∈ i :: is, x.beginTime + a ≤ p.time := by
    intro p hp
    rcases List.mem_cons.1 hp with rfl | hp
    · exact h7
    · unfold PSorted at hys'
      rw [h2] at hys'
      exact h7.trans ((List.pairwise_cons.1 (List.pairwise_append.1 hys').2.1).1 p hp)
  have hisgt : i.time ≠ x.beginTime + a → ∀ p ∈ i :: is, x.beginTime + a < p.time := by
    intro hne p hp
    have h7' := lt_of_le_of_ne h7 (Ne.symm hne)
    rcases List.mem_cons.1 hp with rfl | hp
    · exact h7'
    · unfold PSorted at hys'
      rw [h2] at hys'
      exact h7'.trans_le ((List.pairwise_cons.1 (List.pairwise_append.1 hys').2.1).1 p hp)
  have hI : PInv B a x.beginTime x.endTime (⟨f.time, f.value⟩ :: Y) m (i :: is) [] x.beginTime
      (decide (i.time = x.beginTime + a)) false := by
    refine ⟨⟨c, h2, h3, h4, fun p hp => (h6 p hp).le⟩, h5, fun p hp => hge' p (hcy p (h3 p hp)), hisge,
      fun h => ⟨i, is, rfl, by simpa using h⟩, fun h => hisgt (by simpa using h), by simp,
      fun _ h => absurd h (lt_irrefl _), le_rfl, hbe.le, List.Pairwise.nil, by simp,
      Or.inl ⟨rfl, rfl⟩, fun τ a1 a2 => absurd (a1.trans a2) (by simp), by simp, by simp,
      by simp, fun _ => List.Pairwise.nil, fun T hT => ?_⟩
    rw [h2, List.countP_append]
    have : c.countP (fun p => p.time = T + a) = 0 := by
      rw [List.countP_eq_zero]
      intro p hp
      have := h6 p hp
      simp only [decide_eq_true_eq]
      intro h
      linarith
    omega
  have hfuel : 2 * (i :: is).length + m.length +
      (if decide (i.time = x.beginTime + a) || false then 0 else 1) <
      2 * (⟨f.time, f.value⟩ :: Y : List Point).length + 2 := by
    have := congrArg List.length h2
    rw [List.length_append] at this
    split_ifs <;> omega
  obtain ⟨p, z', hz, hpe, m', is', nc, ec, hF⟩ := plateauMaxLoop_spec ha hys' hyt'
    ⟨q, by simp [hq], hqe⟩ hle' _ _ _ _ _ _ _ hI hfuel
  have hlive : ∀ τ v, pl x.beginTime ≤ τ →
      PeakVal B a (⟨f.time, f.value⟩ :: Y) τ v → PeakVal B a Y τ v := by
    intro τ v hτ h
    have hnl : ¬ Live a τ ⟨f.time, f.value⟩ := by
      intro hl
      have := lt_of_le_of_lt hτ hl.1
      rw [hfb] at this
      exact lt_irrefl _ this
    rcases h with ⟨p, hp, a1, a2, a3⟩ | ⟨a1, a2⟩
    · rcases List.mem_cons.1 hp with rfl | hp
      · exact absurd a1 hnl
      · exact Or.inl ⟨p, hp, a1, a2, fun q hq => a3 q (by simp [hq])⟩
    · exact Or.inr ⟨a1, fun p hp => a2 p (by simp [hp])⟩
  obtain ⟨r, hr, hrb⟩ : ∃ r, z'.getLast? = some r ∧ r.time = x.beginTime := by
    rcases hF.zfirst with ⟨_, h⟩ | h
    · exact absurd h hbe.ne'
    · exact h
  refine ⟨⟨z'.reverse, x.beginTime, x.endTime⟩, ?_, rfl, rfl, ⟨?_, ?_, ?_, ?_⟩, ?_, ?_, ?_, ?_,
    ?_⟩
  · rw [plateauMax, hl]
    simp only [← hl, peaksMax_eq, ← hY, h1, hz, bind, Except.bind, hpe, if_true]
  · intro h
    have : z' = [] := by simpa using h
    simp [this] at hr
  · intro p hp
    have : z'.getLast? = some p := by simpa [List.head?_reverse] using hp
    rw [hr] at this
    simp only [Option.some.injEq] at this
    rw [← this]; exact hrb
  · have := hF.zsorted
    simpa [Sorted, List.pairwise_reverse] using this
  · intro p hp
    exact (hF.zt p (by simpa using hp)).2
  · intro τ a1 a2
    obtain ⟨v, hv, hv'⟩ := hF.zval τ a1 a2
    rw [Signal.v_of_val hv]
    exact hlive τ v a1 hv'
  · intro p hp hb he
    exact hlive _ _ (by simpa using hb.le) (hF.zvc p (by simpa using hp) hb he)
  · intro p hp
    exact hF.zder p (by simpa using hp)
  · intro hy
    exact List.pairwise_reverse.2 (hF.zstrict hy)
  · intro T hT
    have h9 := hF.zcnt T hT
    have : is'.countP (fun p => p.time = T + a) = 0 := by
      rw [List.countP_eq_zero]
      intro p hp
      exfalso
      obtain ⟨c', hc', _⟩ := hF.split
      have h10 := hF.ist p hp
      have h11 := hle' p (by rw [hc']; exact List.mem_append_right _ hp)
      linarith
    rw [List.countP_cons] at h9
    show _ ≤ z'.reverse.countP _
    rw [List.countP_reverse]
    omega

/-- The denotation of `plateauMax`, given tidy peaks. -/
theorem plateauMax_spec {x : Signal} {B a : ℚ} {f : Sample} {l : List Sample}
    (hl : x.samples = f :: l) (hfb : f.time = x.beginTime) (ha : 0 < a)
    (hab : x.beginTime + a ≤ x.endTime)
    (hys : PSorted (pk B x.endTime x.samples))
    (hyt' : Tidy x.endTime (⟨f.time, f.value⟩ :: pk B x.endTime x.samples))
    (hyb : ∀ p ∈ pk B x.endTime x.samples, x.beginTime ≤ p.time ∧ p.time ≤ x.endTime)
    (hye : ∃ p ∈ pk B x.endTime x.samples, p.time = x.endTime) :
    ∃ z, plateauMax B x a = .ok z ∧ z.beginTime = x.beginTime ∧ z.endTime = x.endTime ∧ WF0 z ∧
      (∀ τ, pl x.beginTime ≤ τ → τ ≤ mi x.endTime →
        PeakVal B a (pk B x.endTime x.samples) τ (z.v τ)) ∧
      (∀ p ∈ z.samples, x.beginTime < p.time → p.time < x.endTime →
        PeakVal B a (pk B x.endTime x.samples) (pl p.time) p.value) ∧
      (∀ p ∈ z.samples, p.derivative = 0) := by
  obtain ⟨z, h1, h2, h3, h4, h5, h6, h7, _⟩ := plateauMax_spec' hl hfb ha hab hys hyt' hyb hye
  exact ⟨z, h1, h2, h3, h4, h5, h6, h7⟩

end STLRom
