import Mathlib.Algebra.Order.Field.Power
import Verif.Proofs.PrintNum
import Verif.Spec.Digits

/-!
# Printing rounds to the nearest number with six digits
-/

namespace STLRom
namespace Props
open Print Spec

theorem log_eq {a : ℚ} {x : ℤ} (h1 : (10 : ℚ) ^ x ≤ a) (h2 : a < (10 : ℚ) ^ (x + 1)) : Int.log 10 a = x := by
  have ha : 0 < a := lt_of_lt_of_le (by positivity) h1
  have h3 : x ≤ Int.log 10 a := (Int.zpow_le_iff_le_log (b := 10) (by norm_num) ha).1 (by exact_mod_cast h1)
  have h4 : Int.log 10 a < x + 1 := (Int.lt_zpow_iff_log_lt (b := 10) (by norm_num) ha).1 (by exact_mod_cast h2)
  omega

theorem nearest_spec {a : ℚ} {n : ℕ} (ha : 0 ≤ a) (h1 : |(n : ℚ) - a| ≤ 1 / 2) (h2 : |(n : ℚ) - a| = 1 / 2 → n % 2 = 0) :
    nearest a = n := by
  have hf : 0 ≤ ⌊a⌋ := Int.floor_nonneg.2 ha
  obtain ⟨f, hf⟩ := Int.eq_ofNat_of_zero_le hf
  have hl : (f : ℚ) ≤ a := by have := Int.floor_le a; rw [hf] at this; exact_mod_cast this
  have hu : a < f + 1 := by have := Int.lt_floor_add_one a; rw [hf] at this; exact_mod_cast this
  have hle := abs_le.1 h1
  have c1 : n ≤ f + 1 := by
    have : (n : ℚ) < (f + 2 : ℕ) := by push_cast; linarith
    have : n < f + 2 := by exact_mod_cast this
    omega
  have c2 : f ≤ n := by
    have : (f : ℚ) < (n + 1 : ℕ) := by push_cast; linarith
    have : f < n + 1 := by exact_mod_cast this
    omega
  unfold nearest
  rw [hf]
  simp only [Int.toNat_natCast]
  rcases c2.eq_or_lt with e | e
  · subst e
    split_ifs with i1 i2 i3
    · rfl
    · exfalso; linarith
    · rfl
    · exfalso
      refine i3 (h2 ?_)
      rw [abs_of_nonpos (by linarith)]; linarith
  · have e : n = f + 1 := by omega
    subst e
    push_cast at *
    split_ifs with i1 i2 i3
    · exfalso; linarith
    · rfl
    · exfalso
      have : (f + 1) % 2 = 0 := by
        refine h2 ?_
        rw [abs_of_nonneg (by linarith)]; linarith
      omega
    · rfl

theorem nearest_near {a : ℚ} (ha : 0 ≤ a) :
    |(nearest a : ℚ) - a| ≤ 1 / 2 ∧ (|(nearest a : ℚ) - a| = 1 / 2 → nearest a % 2 = 0) := by
  have hf : 0 ≤ ⌊a⌋ := Int.floor_nonneg.2 ha
  obtain ⟨f, hf⟩ := Int.eq_ofNat_of_zero_le hf
  have hl : (f : ℚ) ≤ a := by have := Int.floor_le a; rw [hf] at this; exact_mod_cast this
  have hu : a < f + 1 := by have := Int.lt_floor_add_one a; rw [hf] at this; exact_mod_cast this
  unfold nearest
  rw [hf]
  simp only [Int.toNat_natCast]
  split_ifs with i1 i2 i3
  · rw [abs_of_nonpos (by linarith)]
    exact ⟨by linarith, fun h => by linarith⟩
  · push_cast
    rw [abs_of_nonneg (by linarith)]
    exact ⟨by linarith, fun h => by linarith⟩
  · rw [abs_of_nonpos (by linarith)]
    exact ⟨by linarith, fun _ => i3⟩
  · push_cast
    rw [abs_of_nonneg (by linarith)]
    exact ⟨by linarith, fun _ => by omega⟩

theorem scaled {n a u : ℚ} (hu : 0 < u) : |n * u - a| = |n - a / u| * u := by
  rw [← abs_of_pos hu, ← abs_mul, abs_of_pos hu]
  congr 1
  field_simp

theorem significant_near {a : ℚ} {x : ℤ} {n : ℕ} (h1 : (10 : ℚ) ^ x ≤ a) (h2 : a < (10 : ℚ) ^ (x + 1))
    (h3 : |(n : ℚ) * (10 : ℚ) ^ (x - 5) - a| ≤ (10 : ℚ) ^ (x - 5) / 2)
    (h4 : |(n : ℚ) * (10 : ℚ) ^ (x - 5) - a| = (10 : ℚ) ^ (x - 5) / 2 → n % 2 = 0) :
    0 < (n : ℚ) * (10 : ℚ) ^ (x - 5) ∧ significant (n * (10 : ℚ) ^ (x - 5)) = significant a := by
  have ha : 0 < a := lt_of_lt_of_le (by positivity) h1
  set u : ℚ := (10 : ℚ) ^ (x - 5) with hu
  have hu0 : 0 < u := by positivity
  have hiu : (10 : ℚ) ^ (5 - x) = u⁻¹ := by rw [hu, ← zpow_neg, neg_sub]
  have hxu : (10 : ℚ) ^ x = 10 ^ 5 * u := by
    rw [hu, ← zpow_natCast, ← zpow_add₀ (by norm_num)]; congr 1; push_cast; ring
  have hxu1 : (10 : ℚ) ^ (x + 1) = 10 ^ 6 * u := by
    rw [zpow_add₀ (by norm_num), hxu]; norm_num; ring
  rw [hxu] at h1
  rw [hxu1] at h2
  have hn : nearest (a * 10 ^ (5 - x)) = n := by
    rw [hiu, ← div_eq_mul_inv]
    refine nearest_spec (by positivity) ?_ fun h => h4 ?_
    · rw [scaled hu0] at h3
      refine le_of_mul_le_mul_right ?_ hu0
      linarith
    · rw [scaled hu0, h]; ring
  have hle := abs_le.1 h3
  have n5 : 10 ^ 5 ≤ n := by
    have : ((10 ^ 5 - 1 : ℕ) : ℚ) < n := by
      push_cast
      refine lt_of_mul_lt_mul_right ?_ hu0.le
      norm_num at *
      linarith
    have : 10 ^ 5 - 1 < n := by exact_mod_cast this
    omega
  have n6 : n ≤ 10 ^ 6 := by
    have : (n : ℚ) < (10 ^ 6 + 1 : ℕ) := by
      push_cast
      refine lt_of_mul_lt_mul_right ?_ hu0.le
      norm_num at *
      linarith
    have : n < 10 ^ 6 + 1 := by exact_mod_cast this
    omega
  have n5' : ((10 : ℚ) ^ 5) ≤ n := by exact_mod_cast n5
  refine ⟨by positivity, ?_⟩
  have hlog : Int.log 10 a = x := log_eq (by rw [hxu]; exact h1) (by rw [hxu1]; exact h2)
  unfold significant
  simp only [hlog, hn]
  by_cases e : n = 10 ^ 6
  · subst e
    have e1 : (((10 ^ 6 : ℕ) : ℚ)) * u = 10 ^ (x + 1) := by rw [hxu1]; push_cast; rfl
    rw [e1, log_eq le_rfl (zpow_lt_zpow_right₀ (by norm_num) (by omega))]
    have e2 : (10 : ℚ) ^ (x + 1) * 10 ^ (5 - (x + 1)) = ((10 ^ 5 : ℕ) : ℚ) := by
      rw [← zpow_add₀ (by norm_num), show x + 1 + (5 - (x + 1)) = 5 by ring]; norm_num
    rw [e2, nearest_nat]
    simp
  · have lt : n < 10 ^ 6 := by omega
    have lt' : (n : ℚ) < 10 ^ 6 := by exact_mod_cast lt
    rw [log_eq (x := x) (by rw [hxu]; gcongr) (by rw [hxu1]; gcongr), hiu, mul_assoc, mul_inv_cancel₀ hu0.ne',
      mul_one, nearest_nat]

/-- Numbers are printed rounded to the nearest six digits. -/
theorem number_near {q q' : ℚ} (h : Nearest6 q q') : number q = number q' := by
  rcases h with ⟨rfl, rfl⟩ | ⟨x, n, h1, h2, rfl, h3, h4⟩
  · rfl
  · have h5 := significant_near h1 h2 h3 h4
    have hq : q ≠ 0 := by
      rintro rfl
      have : (0 : ℚ) < 10 ^ x := by positivity
      simp at h1
      linarith
    unfold number
    by_cases hn : q < 0
    · have h6 : (if q < 0 then (-1 : ℚ) else 1) * (n * (10 : ℚ) ^ (x - 5)) = -(n * (10 : ℚ) ^ (x - 5)) := by
        rw [if_pos hn]; ring
      have h7 : -((n : ℚ) * (10 : ℚ) ^ (x - 5)) < 0 := by linarith [h5.1]
      rw [h6, if_neg hq, if_neg h7.ne, abs_of_neg h7, neg_neg, h5.2]
      simp only [hn, h7, if_true]
    · have h6 : (if q < 0 then (-1 : ℚ) else 1) * (n * (10 : ℚ) ^ (x - 5)) = n * (10 : ℚ) ^ (x - 5) := by
        rw [if_neg hn]; ring
      rw [h6, if_neg hq, if_neg h5.1.ne', abs_of_pos h5.1, h5.2]
      simp only [hn, not_lt.2 h5.1.le, if_false]

theorem near6_exists (q : ℚ) : ∃ q', Nearest6 q q' := by
  by_cases hq : q = 0
  · exact ⟨0, .inl ⟨hq, rfl⟩⟩
  · have ha : 0 < |q| := abs_pos.2 hq
    set x := Int.log 10 |q| with hx
    have hlo : (10 : ℚ) ^ x ≤ |q| := by exact_mod_cast Int.zpow_log_le_self (b := 10) (by norm_num) ha
    have hup : |q| < (10 : ℚ) ^ (x + 1) := by exact_mod_cast Int.lt_zpow_succ_log_self (b := 10) (by norm_num) |q|
    have hu0 : (0 : ℚ) < (10 : ℚ) ^ (x - 5) := by positivity
    obtain ⟨h1, h2⟩ := nearest_near (a := |q| / (10 : ℚ) ^ (x - 5)) (by positivity)
    refine ⟨_, .inr ⟨x, nearest (|q| / (10 : ℚ) ^ (x - 5)), hlo, hup, rfl, ?_, fun h => h2 ?_⟩⟩
    · rw [scaled hu0]
      calc _ ≤ 1 / 2 * (10 : ℚ) ^ (x - 5) := by gcongr
        _ = _ := by ring
    · rw [scaled hu0] at h
      refine mul_right_cancel₀ hu0.ne' (h.trans ?_)
      ring

/-- The relative error is at most five in a million. -/
theorem near6_error {q q' : ℚ} (h : Nearest6 q q') : |q' - q| ≤ |q| / 200000 := by
  rcases h with ⟨rfl, rfl⟩ | ⟨x, n, h1, h2, rfl, h3, h4⟩
  · simp
  · have hxu : (10 : ℚ) ^ x = 10 ^ 5 * (10 : ℚ) ^ (x - 5) := by
      rw [← zpow_natCast, ← zpow_add₀ (by norm_num)]; congr 1; push_cast; ring
    have key : |(if q < 0 then (-1 : ℚ) else 1) * (n * (10 : ℚ) ^ (x - 5)) - q| =
        |(n : ℚ) * (10 : ℚ) ^ (x - 5) - abs q| := by
      split_ifs with hn
      · rw [abs_of_neg hn, ← abs_neg]; congr 1; ring
      · rw [abs_of_nonneg (not_lt.1 hn), one_mul]
    rw [key]
    refine h3.trans ?_
    rw [hxu] at h1
    norm_num at h1
    linarith

theorem print_nearI {I J : Ival} (h : NearI I J) : I.print = J.print := by
  obtain ⟨h1, h2, h3, h4⟩ := h
  unfold Ival.print
  rw [h1, h2]
  by_cases e1 : I.beginStr = "" <;> by_cases e2 : I.stopStr = ""
  · rw [if_pos e1, if_pos e1, if_pos e2, if_pos e2, number_near (h3 e1), number_near (h4 e2)]
  · rw [if_pos e1, if_pos e1, if_neg e2, number_near (h3 e1)]
    simp [e2]
  · rw [if_pos e2, if_pos e2, if_neg e1, number_near (h4 e2)]
    simp [e1]
  · simp [e1, e2]

/-- Equal texts. -/
theorem print_near {T T' : Tr} (h : NearT T T') : T.print = T'.print := by
  induction h with
  | param h => simp [Tr.print, h]
  | const h => simp [Tr.print, number_near h]
  | ev h _ ih => simp only [Tr.print, print_nearI h, ih]
  | alw h _ ih => simp only [Tr.print, print_nearI h, ih]
  | untl h _ _ i j => simp only [Tr.print, print_nearI h, i, j]
  | _ => simp_all only [Tr.print]

theorem known_near {d : Driver} {T T' : Tr} (h : NearT T T') : Known d T ↔ Known d T' := by
  induction h with
  | ev h _ ih => simp only [Known, h.1, h.2.1, ih]
  | alw h _ ih => simp only [Known, h.1, h.2.1, ih]
  | untl h _ _ i j => simp only [Known, h.1, h.2.1, i, j]
  | _ => simp_all only [Known]

end Props
end STLRom
