import Verif.Model.Signal
import Mathlib.Data.Prod.Lex
import Mathlib.Order.Basic
import Mathlib.Order.Defs.LinearOrder
import Mathlib.Tactic.Linarith
import Mathlib.Tactic.Ring
import Mathlib.Tactic.FieldSimp
import Mathlib.Algebra.Order.Field.Rat
import Mathlib.Data.Bool.Basic
import Mathlib.Tactic.Positivity

/-!
# One-sided points of the time line

A piecewise-linear signal with jumps has two values at a breakpoint: the limit from
the left and the value itself.  `mi t` and `pl t` stand for "just before `t`" and "at
`t`"; they are ordered lexicographically.
-/

namespace STLRom

/-- A point of the time line with a side. -/
@[ext] structure Pt where
  time : ℚ
  right : Bool
  deriving DecidableEq

/-- At `t`. -/
def pl (t : ℚ) : Pt := ⟨t, true⟩
/-- Just before `t`. -/
def mi (t : ℚ) : Pt := ⟨t, false⟩

@[simp] theorem pl_time (t : ℚ) : (pl t).time = t := rfl
@[simp] theorem mi_time (t : ℚ) : (mi t).time = t := rfl

theorem Pt.cases (τ : Pt) : τ = pl τ.time ∨ τ = mi τ.time := by
  rcases τ with ⟨t, r⟩
  cases r
  · right; rfl
  · left; rfl

instance : LinearOrder Pt :=
  LinearOrder.lift' (fun p : Pt => toLex (p.time, p.right)) (by
    intro a b h
    have h' := toLex.injective h
    simp only [Prod.mk.injEq] at h'
    exact Pt.ext h'.1 h'.2)

theorem Pt.le_iff (a b : Pt) :
    a ≤ b ↔ a.time < b.time ∨ (a.time = b.time ∧ a.right ≤ b.right) := by
  show toLex (a.time, a.right) ≤ toLex (b.time, b.right) ↔ _
  rw [Prod.Lex.toLex_le_toLex]

theorem Pt.lt_iff (a b : Pt) :
    a < b ↔ a.time < b.time ∨ (a.time = b.time ∧ a.right < b.right) := by
  show toLex (a.time, a.right) < toLex (b.time, b.right) ↔ _
  rw [Prod.Lex.toLex_lt_toLex]

@[simp] theorem pl_le_pl (s t : ℚ) : pl s ≤ pl t ↔ s ≤ t := by
  rw [Pt.le_iff]; simp [pl, le_iff_lt_or_eq]
@[simp] theorem mi_le_mi (s t : ℚ) : mi s ≤ mi t ↔ s ≤ t := by
  rw [Pt.le_iff]; simp [mi, le_iff_lt_or_eq]
@[simp] theorem mi_le_pl (s t : ℚ) : mi s ≤ pl t ↔ s ≤ t := by
  rw [Pt.le_iff]; simp [mi, pl, le_iff_lt_or_eq]
@[simp] theorem pl_le_mi (s t : ℚ) : pl s ≤ mi t ↔ s < t := by
  simp [Pt.le_iff, mi, pl]
@[simp] theorem pl_lt_pl (s t : ℚ) : pl s < pl t ↔ s < t := by
  rw [← not_le, pl_le_pl, not_le]
@[simp] theorem mi_lt_mi (s t : ℚ) : mi s < mi t ↔ s < t := by
  rw [← not_le, mi_le_mi, not_le]
@[simp] theorem mi_lt_pl (s t : ℚ) : mi s < pl t ↔ s ≤ t := by
  rw [← not_le, pl_le_mi, not_lt]
@[simp] theorem pl_lt_mi (s t : ℚ) : pl s < mi t ↔ s < t := by
  rw [← not_le, mi_le_pl, not_le]

@[simp] theorem pl_inj (s t : ℚ) : pl s = pl t ↔ s = t := by simp [pl]
@[simp] theorem mi_inj (s t : ℚ) : mi s = mi t ↔ s = t := by simp [mi]

/-- `mi t < τ` is the same as `pl t ≤ τ`. -/
theorem mi_lt_iff (t : ℚ) (τ : Pt) : mi t < τ ↔ pl t ≤ τ := by
  rcases τ.cases with h | h <;> rw [h] <;> simp

theorem Pt.time_le {a b : Pt} (h : a ≤ b) : a.time ≤ b.time := by
  rw [Pt.le_iff] at h
  rcases h with h | h
  · exact h.le
  · exact h.1.le

theorem pl_le_iff {s : ℚ} {τ : Pt} : pl s ≤ τ → s ≤ τ.time := fun h => Pt.time_le h
theorem le_mi_iff {s : ℚ} {τ : Pt} : τ ≤ mi s → τ.time ≤ s := fun h => Pt.time_le h
theorem le_pl_iff {s : ℚ} {τ : Pt} : τ ≤ pl s ↔ τ.time ≤ s := by
  rcases τ.cases with h | h <;> rw [h] <;> simp
theorem mi_le_iff {s : ℚ} {τ : Pt} : mi s ≤ τ ↔ s ≤ τ.time := by
  rcases τ.cases with h | h <;> rw [h] <;> simp

/-! ## Denotation of a list of samples -/

/-- The sample in force at `τ`: the last one whose time is at or before `τ`. -/
def cur : List Sample → Pt → Option Sample
  | [], _ => none
  | p :: l, τ => (cur l τ).or (if pl p.time ≤ τ then some p else none)

/-- The value at `τ`. -/
def val (l : List Sample) (τ : Pt) : Option ℚ := (cur l τ).map fun p => p.valueAt τ.time

theorem cur_eq_find (l : List Sample) (τ : Pt) :
    cur l τ = l.reverse.find? fun p => decide (pl p.time ≤ τ) := by
  induction l with
  | nil => rfl
  | cons p l ih =>
    simp only [cur, ih, List.reverse_cons, List.find?_append]
    congr 1
    by_cases h : pl p.time ≤ τ <;> simp [h]

theorem cur_eq_none {l : List Sample} {τ : Pt} :
    cur l τ = none ↔ ∀ p ∈ l, τ < pl p.time := by
  rw [cur_eq_find, List.find?_eq_none]
  simp

theorem cur_mem {l : List Sample} {τ : Pt} {p : Sample} (h : cur l τ = some p) :
    p ∈ l ∧ pl p.time ≤ τ := by
  rw [cur_eq_find] at h
  refine ⟨?_, ?_⟩
  · have := List.mem_of_find?_eq_some h
    simpa using this
  · have := List.find?_some h
    simpa using this

theorem cur_append (l r : List Sample) (τ : Pt) :
    cur (l ++ r) τ = (cur r τ).or (cur l τ) := by
  simp [cur_eq_find, List.find?_append]

/-- Times never decrease along the list. -/
def Sorted (l : List Sample) : Prop := l.Pairwise fun p q => p.time ≤ q.time

/-- All samples are at or after `t`. -/
def From (t : ℚ) (l : List Sample) : Prop := ∀ p ∈ l, t ≤ p.time

theorem From.mono {s t : ℚ} {l : List Sample} (h : From t l) (hs : s ≤ t) : From s l :=
  fun p hp => hs.trans (h p hp)

theorem val_cons_of_lt {p : Sample} {l : List Sample} {τ : Pt}
    (h : ∀ q ∈ l, τ < pl q.time) (hp : pl p.time ≤ τ) :
    val (p :: l) τ = some (p.valueAt τ.time) := by
  simp [val, cur, cur_eq_none.2 h, hp]

theorem val_cons_of_some {p : Sample} {l : List Sample} {τ : Pt} {v : ℚ}
    (h : val l τ = some v) : val (p :: l) τ = some v := by
  simp only [val, Option.map_eq_some_iff] at h ⊢
  obtain ⟨q, hq, hv⟩ := h
  exact ⟨q, by simp [cur, hq], hv⟩

/-! ## Affine facts -/

theorem valueAt_self (p : Sample) : p.valueAt p.time = p.value := by
  simp [Sample.valueAt]

theorem valueAt_move (p : Sample) (s r : ℚ) :
    (⟨s, p.valueAt s, p.derivative⟩ : Sample).valueAt r = p.valueAt r := by
  simp only [Sample.valueAt]; ring

theorem valueAt_le_between {p q : Sample} {s r t : ℚ} (h1 : s ≤ r) (h2 : r ≤ t)
    (hs : p.valueAt s ≤ q.valueAt s) (ht : p.valueAt t ≤ q.valueAt t) :
    p.valueAt r ≤ q.valueAt r := by
  simp only [Sample.valueAt] at *
  by_cases hd : p.derivative ≤ q.derivative
  · have := mul_nonneg (sub_nonneg.2 hd) (sub_nonneg.2 h1)
    linarith
  · have := mul_nonneg (sub_nonneg.2 (not_le.1 hd).le) (sub_nonneg.2 h2)
    linarith

theorem timeIntersect_spec {p q : Sample} {s t : ℚ} (hst : s ≤ t)
    (ht : p.valueAt t < q.valueAt t) (hs : q.valueAt s < p.valueAt s) :
    ∃ r, p.timeIntersect q = .ok r ∧ s < r ∧ r < t ∧ p.valueAt r = q.valueAt r := by
  have hd : p.derivative < q.derivative := by
    by_contra h
    push Not at h
    simp only [Sample.valueAt] at *
    have := mul_nonneg (sub_nonneg.2 h) (sub_nonneg.2 hst)
    linarith
  have hne : q.derivative - p.derivative ≠ 0 := (sub_pos.2 hd).ne'
  refine ⟨(p.value - q.value + q.derivative * q.time - p.derivative * p.time) /
    (q.derivative - p.derivative), by simp [Sample.timeIntersect, qdiv, hne], ?_, ?_, ?_⟩
  · rw [lt_div_iff₀ (sub_pos.2 hd)]
    simp only [Sample.valueAt] at *
    linarith
  · rw [div_lt_iff₀ (sub_pos.2 hd)]
    simp only [Sample.valueAt] at *
    linarith
  · simp only [Sample.valueAt]
    field_simp
    ring

theorem timeIntersect_spec' {p q : Sample} {s t : ℚ} (hst : s ≤ t)
    (ht : q.valueAt t < p.valueAt t) (hs : p.valueAt s < q.valueAt s) :
    ∃ r, p.timeIntersect q = .ok r ∧ s < r ∧ r < t ∧ p.valueAt r = q.valueAt r := by
  have hd : q.derivative < p.derivative := by
    by_contra h
    push Not at h
    simp only [Sample.valueAt] at *
    have := mul_nonneg (sub_nonneg.2 h) (sub_nonneg.2 hst)
    linarith
  have hne : q.derivative - p.derivative ≠ 0 := (sub_neg.2 hd).ne
  refine ⟨(p.value - q.value + q.derivative * q.time - p.derivative * p.time) /
    (q.derivative - p.derivative), by simp [Sample.timeIntersect, qdiv, hne], ?_, ?_, ?_⟩
  · rw [lt_div_iff_of_neg (sub_neg.2 hd)]
    simp only [Sample.valueAt] at *
    linarith
  · rw [div_lt_iff_of_neg (sub_neg.2 hd)]
    simp only [Sample.valueAt] at *
    linarith
  · simp only [Sample.valueAt]
    field_simp
    ring

end STLRom
