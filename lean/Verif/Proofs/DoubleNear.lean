import Verif.Proofs.DoubleRep

/-!
# `dbl` returns the nearest double

No number with 53 bits is closer, and the error is half a unit in the last place.
-/

namespace STLRom
namespace Fp

theorem nearest_closest (m : ℚ) (k : ℤ) : |nearest m - m| ≤ |k - m| := by
  have h1 := Int.floor_le m
  have h2 := Int.lt_floor_add_one m
  have key : ∀ N : ℤ, |(N : ℚ) - m| ≤ |((⌊m⌋ : ℤ) : ℚ) - m| → |(N : ℚ) - m| ≤ |((⌊m⌋ : ℤ) : ℚ) + 1 - m| →
      |(N : ℚ) - m| ≤ |k - m| := by
    intro N a b
    rcases le_or_gt k ⌊m⌋ with h | h
    · refine a.trans ?_
      have : (k : ℚ) ≤ (⌊m⌋ : ℤ) := by exact_mod_cast h
      rw [abs_of_nonpos (by linarith), abs_of_nonpos (by linarith)]
      linarith
    · refine b.trans ?_
      have : ((⌊m⌋ : ℤ) : ℚ) + 1 ≤ k := by exact_mod_cast h
      rw [abs_of_nonneg (by linarith), abs_of_nonneg (by linarith)]
      linarith
  have a0 : |((⌊m⌋ : ℤ) : ℚ) - m| = m - ⌊m⌋ := by rw [abs_of_nonpos (by linarith)]; ring
  have a1 : |((⌊m⌋ : ℤ) : ℚ) + 1 - m| = ⌊m⌋ + 1 - m := abs_of_nonneg (by linarith)
  apply key <;> unfold nearest <;> simp only <;> split_ifs <;> push_cast <;> linarith

theorem nearest_half (m : ℚ) : |nearest m - m| ≤ 1 / 2 := by
  have h1 := Int.floor_le m
  have h2 := Int.lt_floor_add_one m
  have a0 := nearest_closest m ⌊m⌋
  have a1 := nearest_closest m (⌊m⌋ + 1)
  rw [abs_of_nonpos (by linarith : ((⌊m⌋ : ℤ) : ℚ) - m ≤ 0)] at a0
  push_cast at a1
  rw [abs_of_nonneg (by linarith : (0 : ℚ) ≤ (⌊m⌋ : ℤ) + 1 - m)] at a1
  linarith

/-- Between `z` and a number with 53 bits there is a multiple of the last place of `z`. -/
theorem last_place {y z : ℚ} (h0 : z ≠ 0) (hy : Rep y) :
    (z ≤ y → ∃ k : ℤ, z ≤ k * pow2 (max (expo z - 52) (-1074)) ∧ k * pow2 (max (expo z - 52) (-1074)) ≤ y) ∧
    (y ≤ z → ∃ k : ℤ, y ≤ k * pow2 (max (expo z - 52) (-1074)) ∧ k * pow2 (max (expo z - 52) (-1074)) ≤ z) := by
  obtain ⟨N, q, hN, hq, rfl⟩ := hy
  set r := max (expo z - 52) (-1074) with hr
  rcases le_or_gt r q with h | h
  · obtain ⟨d, hd⟩ := Int.eq_ofNat_of_zero_le (show 0 ≤ q - r by omega)
    have hk : (N : ℚ) * (2 : ℚ) ^ q = ((N * 2 ^ d : ℤ) : ℚ) * pow2 r := by
      rw [pow2_eq]
      push_cast
      rw [mul_assoc, ← zpow_natCast (2 : ℚ) d, ← zpow_add₀ (by norm_num), ← hd, sub_add_cancel]
    exact ⟨fun h => ⟨_, h.trans hk.le, hk.ge⟩, fun h => ⟨_, hk.le, hk.ge.trans h⟩⟩
  · have hr' : r = expo z - 52 := by omega
    have hw : (2 : ℚ) ^ expo z = ((2 ^ 52 : ℤ) : ℚ) * pow2 r := by
      rw [pow2_eq, hr', show ((2 ^ 52 : ℤ) : ℚ) = (2 : ℚ) ^ (52 : ℤ) by norm_num, ← zpow_add₀ (by norm_num)]
      congr 1; ring
    have e2 : ((-(2 ^ 52) : ℤ) : ℚ) * pow2 r = -(2 : ℚ) ^ expo z := by
      rw [hw]; push_cast; ring
    have hyw : |(N : ℚ) * (2 : ℚ) ^ q| ≤ (2 : ℚ) ^ expo z := by
      rw [abs_mul, abs_of_pos (show (0 : ℚ) < (2 : ℚ) ^ q by positivity)]
      have hN' : |(N : ℚ)| ≤ (2 : ℚ) ^ (53 : ℤ) := by exact_mod_cast hN
      calc |(N : ℚ)| * (2 : ℚ) ^ q ≤ (2 : ℚ) ^ (53 : ℤ) * (2 : ℚ) ^ q :=
            mul_le_mul_of_nonneg_right hN' (by positivity)
        _ = (2 : ℚ) ^ (53 + q) := by rw [← zpow_add₀ (by norm_num)]
        _ ≤ _ := zpow_le_zpow_right₀ (by norm_num) (by omega)
    have hz := expo_le h0
    have hyw' := abs_le.1 hyw
    rcases lt_or_gt_of_ne h0 with hneg | hpos
    · rw [abs_of_neg hneg] at hz
      exact ⟨fun _ => ⟨-(2 ^ 52), by rw [e2]; linarith, by rw [e2]; linarith⟩,
        fun _ => ⟨-(2 ^ 52), by rw [e2]; linarith, by rw [e2]; linarith⟩⟩
    · rw [abs_of_pos hpos] at hz
      exact ⟨fun _ => ⟨2 ^ 52, by rw [← hw]; linarith, by rw [← hw]; linarith⟩,
        fun _ => ⟨2 ^ 52, by rw [← hw]; linarith, by rw [← hw]; linarith⟩⟩

/-- No multiple of the last place is closer. -/
theorem dbl_mult {x : ℚ} (h0 : x ≠ 0) (k : ℤ) :
    |dbl x - x| ≤ |k * pow2 (max (expo x - 52) (-1074)) - x| := by
  unfold dbl
  rw [if_neg h0]
  simp only
  set r := max (expo x - 52) (-1074)
  have hp : (0 : ℚ) < pow2 r := by rw [pow2_eq]; positivity
  have hx : x = x / pow2 r * pow2 r := by field_simp
  have e : ∀ N : ℤ, |(N : ℚ) * pow2 r - x| = |N - x / pow2 r| * pow2 r := by
    intro N
    rw [← abs_of_pos hp, ← abs_mul, abs_of_pos hp]
    congr 1
    rw [sub_mul, ← hx]
  rw [e, e]
  exact mul_le_mul_of_nonneg_right (nearest_closest _ _) hp.le

theorem dbl_closest {y : ℚ} (x : ℚ) (hy : Rep y) : |dbl x - x| ≤ |y - x| := by
  by_cases h0 : x = 0
  · subst h0
    rw [show dbl 0 = 0 from rfl]
    simp
  rcases le_total x y with h | h
  · obtain ⟨k, h1, h2⟩ := (last_place h0 hy).1 h
    refine (dbl_mult h0 k).trans ?_
    rw [abs_of_nonneg (by linarith), abs_of_nonneg (by linarith)]
    linarith
  · obtain ⟨k, h1, h2⟩ := (last_place h0 hy).2 h
    refine (dbl_mult h0 k).trans ?_
    rw [abs_of_nonpos (by linarith), abs_of_nonpos (by linarith)]
    linarith

/-- Half a unit in the last place. -/
theorem dbl_error (x : ℚ) : |dbl x - x| ≤ |x| / 2 ^ 53 + 1 / 2 ^ 1075 := by
  by_cases h0 : x = 0
  · subst h0
    rw [show dbl 0 = 0 from rfl, sub_zero, abs_zero]
    positivity
  have h : |dbl x - x| ≤ pow2 (max (expo x - 52) (-1074)) / 2 := by
    unfold dbl
    rw [if_neg h0]
    simp only
    set r := max (expo x - 52) (-1074)
    have hp : (0 : ℚ) < pow2 r := by rw [pow2_eq]; positivity
    have hx : x = x / pow2 r * pow2 r := by field_simp
    have e : |(nearest (x / pow2 r) : ℚ) * pow2 r - x| = |nearest (x / pow2 r) - x / pow2 r| * pow2 r := by
      rw [← abs_of_pos hp, ← abs_mul, abs_of_pos hp]
      congr 1
      rw [sub_mul, ← hx]
    rw [e]
    have := mul_le_mul_of_nonneg_right (nearest_half (x / pow2 r)) hp.le
    linarith
  refine h.trans ?_
  have e1 : (1 : ℚ) / 2 ^ 1075 = (2 : ℚ) ^ (-1074 : ℤ) / 2 := by
    rw [zpow_neg, show (2 : ℚ) ^ (1074 : ℤ) = 2 ^ 1074 from zpow_natCast 2 1074, pow_succ (2 : ℚ) 1074]
    field_simp
  rw [pow2_eq]
  rcases max_choice (expo x - 52) (-1074) with h1 | h1 <;> rw [h1]
  · have := expo_le h0
    have e2 : (2 : ℚ) ^ (expo x - 52) = (2 : ℚ) ^ expo x / 2 ^ 52 := by
      rw [zpow_sub₀ (by norm_num), show (2 : ℚ) ^ (52 : ℤ) = 2 ^ 52 from zpow_natCast 2 52]
    have e3 : (0 : ℚ) ≤ 1 / 2 ^ 1075 := by positivity
    rw [e2]
    generalize (1 : ℚ) / 2 ^ 1075 = u at *
    have : (2 : ℚ) ^ expo x / 2 ^ 52 / 2 ≤ |x| / 2 ^ 53 := by
      rw [div_div]
      norm_num
      linarith
    linarith
  · rw [e1]
    have : 0 ≤ |x| / 2 ^ 53 := by positivity
    linarith

end Fp
end STLRom
