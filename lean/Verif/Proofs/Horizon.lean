import Verif.Model.Horizon
import Verif.Spec.Horizon

namespace STLRom
open Spec
namespace Tr

/-- What `init_horizon` leaves. -/
def initOf (P : Assoc ℚ) (T : Tr) : Tr := T.setHorizon P T.st.start T.st.stop

theorem initOf_with (P : Assoc ℚ) (s e : ℚ) (T : Tr) :
    initOf P (T.withHorizon s e) = T.setHorizon P s e := by
  cases T <;> rfl

theorem setHorizon_setHorizon (P : Assoc ℚ) (T : Tr) :
    ∀ s e s' e', (T.setHorizon P s e).setHorizon P s' e' = T.setHorizon P s' e' := by
  induction T with
  | sig => intros; rfl
  | const => intros; rfl
  | _ => intro s e s' e'; simp only [setHorizon, *]

theorem setHorizon_st (P : Assoc ℚ) (s e : ℚ) (T : Tr) :
    (T.setHorizon P s e).st.start = s ∧ (T.setHorizon P s e).st.stop = e := by
  cases T <;> exact ⟨rfl, rfl⟩

theorem initOf_setHorizon (P : Assoc ℚ) (s e : ℚ) (T : Tr) :
    initOf P (T.setHorizon P s e) = T.setHorizon P s e := by
  unfold initOf
  rw [setHorizon_setHorizon, (setHorizon_st P s e T).1, (setHorizon_st P s e T).2]

theorem InitHorizon.eq {P : Assoc ℚ} {T T' : Tr} (h : InitHorizon P T T') : T' = initOf P T := by
  induction h with
  | sig => rfl
  | const => rfl
  | abs _ _ h1 h2 => rw [h2, h1, initOf_with, initOf_setHorizon]; rfl
  | not _ _ h1 h2 => rw [h2, h1, initOf_with, initOf_setHorizon]; rfl
  | ev _ _ h1 h2 => rw [h2, h1, initOf_with, initOf_setHorizon]; rfl
  | alw _ _ h1 h2 => rw [h2, h1, initOf_with, initOf_setHorizon]; rfl
  | _ _ _ _ _ h1 h2 h3 h4 =>
    rw [h3, h4, h1, h2, initOf_with, initOf_with, initOf_setHorizon, initOf_setHorizon]; rfl

/-- Number of levels. -/
def depth : Tr → ℕ
  | sig .. => 0
  | const .. => 0
  | abs _ c | not _ c | ev _ _ c | alw _ _ c => depth c + 1
  | plus _ l r | minus _ l r | mult _ l r | atom _ _ l r | and _ l r | or _ l r
  | implies _ l r | untl _ l _ r => max (depth l) (depth r) + 1

theorem depth_with (s e : ℚ) (T : Tr) : (T.withHorizon s e).depth = T.depth := by
  cases T <;> rfl

theorem depth_setHorizon (P : Assoc ℚ) (T : Tr) :
    ∀ s e, (T.setHorizon P s e).depth = T.depth := by
  induction T with
  | sig => intros; rfl
  | const => intros; rfl
  | _ => intro s e; simp only [setHorizon, depth, *]

/-- The call terminates. -/
theorem InitHorizon.total (P : Assoc ℚ) (n : ℕ) :
    ∀ T : Tr, T.depth ≤ n → InitHorizon P T (initOf P T) := by
  induction n with
  | zero =>
    intro T h
    cases T with
    | sig => exact .sig _ _ _ _
    | const => exact .const _ _ _ _
    | _ => simp [depth] at h
  | succ n ih =>
    have one : ∀ (c : Tr) (s e : ℚ), c.depth ≤ n →
        InitHorizon P (c.withHorizon s e) (c.setHorizon P s e) ∧
        InitHorizon P (c.setHorizon P s e) (c.setHorizon P s e) := by
      intro c s e hc
      have h1 := ih (c.withHorizon s e) (by rwa [depth_with])
      have h2 := ih (c.setHorizon P s e) (by rwa [depth_setHorizon])
      rw [initOf_with] at h1
      rw [initOf_setHorizon] at h2
      exact ⟨h1, h2⟩
    intro T h
    cases T with
    | sig => exact .sig _ _ _ _
    | const => exact .const _ _ _ _
    | abs st c => obtain ⟨a, b⟩ := one c _ _ (Nat.le_of_succ_le_succ h); exact .abs a b
    | not st c => obtain ⟨a, b⟩ := one c _ _ (Nat.le_of_succ_le_succ h); exact .not a b
    | ev st I c => obtain ⟨a, b⟩ := one c _ _ (Nat.le_of_succ_le_succ h); exact .ev a b
    | alw st I c => obtain ⟨a, b⟩ := one c _ _ (Nat.le_of_succ_le_succ h); exact .alw a b
    | plus st l r =>
      have h' := max_le_iff.1 (Nat.le_of_succ_le_succ h)
      exact .plus (one l _ _ h'.1).1 (one r _ _ h'.2).1 (one l _ _ h'.1).2 (one r _ _ h'.2).2
    | minus st l r =>
      have h' := max_le_iff.1 (Nat.le_of_succ_le_succ h)
      exact .minus (one l _ _ h'.1).1 (one r _ _ h'.2).1 (one l _ _ h'.1).2 (one r _ _ h'.2).2
    | mult st l r =>
      have h' := max_le_iff.1 (Nat.le_of_succ_le_succ h)
      exact .mult (one l _ _ h'.1).1 (one r _ _ h'.2).1 (one l _ _ h'.1).2 (one r _ _ h'.2).2
    | atom st k l r =>
      have h' := max_le_iff.1 (Nat.le_of_succ_le_succ h)
      exact .atom (one l _ _ h'.1).1 (one r _ _ h'.2).1 (one l _ _ h'.1).2 (one r _ _ h'.2).2
    | and st l r =>
      have h' := max_le_iff.1 (Nat.le_of_succ_le_succ h)
      exact .and (one l _ _ h'.1).1 (one r _ _ h'.2).1 (one l _ _ h'.1).2 (one r _ _ h'.2).2
    | or st l r =>
      have h' := max_le_iff.1 (Nat.le_of_succ_le_succ h)
      exact .or (one l _ _ h'.1).1 (one r _ _ h'.2).1 (one l _ _ h'.1).2 (one r _ _ h'.2).2
    | implies st l r =>
      have h' := max_le_iff.1 (Nat.le_of_succ_le_succ h)
      exact .implies (one l _ _ h'.1).1 (one r _ _ h'.2).1 (one l _ _ h'.1).2 (one r _ _ h'.2).2
    | untl st l I r =>
      have h' := max_le_iff.1 (Nat.le_of_succ_le_succ h)
      exact .untl (one l _ _ h'.1).1 (one r _ _ h'.2).1 (one l _ _ h'.1).2 (one r _ _ h'.2).2

theorem setHorizon_iff (P : Assoc ℚ) (s e : ℚ) (T T' : Tr) :
    SetHorizon P s e T T' ↔ T' = T.setHorizon P s e := by
  unfold SetHorizon
  constructor
  · intro h; rw [h.eq, initOf_with]
  · rintro rfl
    rw [← initOf_with]
    exact InitHorizon.total P _ _ le_rfl

theorem ivA_bound (P : Assoc ℚ) (I : Ival) : ivA P I = bound P I.beginStr I.begin := by
  unfold ivA resolve bound
  cases P.lookup I.beginStr <;> rfl

theorem ivB_bound (P : Assoc ℚ) (I : Ival) : ivB P I = bound P I.stopStr I.stop := by
  unfold ivB resolve bound
  cases P.lookup I.stopStr <;> rfl

theorem hasHorizon_setHorizon (P : Assoc ℚ) (T : Tr) :
    ∀ s e, HasHorizon P s e (T.setHorizon P s e) := by
  induction T with
  | sig => intro s e; exact ⟨rfl, rfl⟩
  | const => intro s e; exact ⟨rfl, rfl⟩
  | abs st c ih => intro s e; exact ⟨rfl, rfl, ih s e⟩
  | not st c ih => intro s e; exact ⟨rfl, rfl, ih s e⟩
  | ev st I c ih =>
    intro s e; simp only [setHorizon, HasHorizon, ivA_bound, ivB_bound, ih, and_self]
  | alw st I c ih =>
    intro s e; simp only [setHorizon, HasHorizon, ivA_bound, ivB_bound, ih, and_self]
  | untl st l I r ihl ihr =>
    intro s e; simp only [setHorizon, HasHorizon, ivA_bound, ivB_bound, ihl, ihr, and_self]
  | _ => intro s e; simp only [setHorizon, HasHorizon, *, and_self]

theorem erase_setHorizon (P : Assoc ℚ) (T : Tr) :
    ∀ s e, eraseHorizon (T.setHorizon P s e) = eraseHorizon T := by
  induction T with
  | sig => intro s e; rfl
  | const => intro s e; rfl
  | _ => intro s e; simp only [setHorizon, eraseHorizon, *]

end Tr
end STLRom
