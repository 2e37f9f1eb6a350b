import Mathlib.Algebra.Order.Field.Power
import Mathlib.Tactic.Linarith
import Mathlib.Tactic.NormNum
import Verif.Model.Double
import Verif.Proofs.Grid
import Verif.Spec.Rounded

/-!
# Numbers that `double` keeps
-/

namespace STLRom
namespace Fp
open Spec

theorem pow2_eq (k : ℤ) : pow2 k = (2 : ℚ) ^ k := by
  unfold pow2
  split_ifs with h
  · obtain ⟨n, rfl⟩ := Int.eq_ofNat_of_zero_le h
    simp
  · obtain ⟨n, hn⟩ := Int.eq_ofNat_of_zero_le (show 0 ≤ -k by omega)
    have : k = -(n : ℤ) := by omega
    subst this
    simp

theorem expo_le {x : ℚ} (hx : x ≠ 0) : (2 : ℚ) ^ expo x ≤ |x| := by
  have hn : x.num.natAbs ≠ 0 := by simpa using hx
  have h1 : (2 : ℚ) ^ (x.num.natAbs.log2 : ℤ) ≤ (x.num.natAbs : ℚ) := by
    rw [zpow_natCast]
    exact_mod_cast Nat.log2_self_le hn
  have h2 : (x.den : ℚ) < (2 : ℚ) ^ ((x.den.log2 : ℤ) + 1) := by
    have : x.den < 2 ^ (x.den.log2 + 1) := Nat.lt_log2_self
    exact_mod_cast this
  have hd : (0 : ℚ) < x.den := by exact_mod_cast x.den_pos
  have hx' : |x| = (x.num.natAbs : ℚ) / x.den := by
    conv_lhs => rw [← Rat.num_div_den x]
    rw [abs_div, abs_of_pos hd, Nat.cast_natAbs, Int.cast_abs]
  unfold expo
  simp only [pow2_eq]
  split_ifs with h
  · exact h
  · rw [hx', le_div_iff₀ hd]
    calc (2 : ℚ) ^ ((x.num.natAbs.log2 : ℤ) - (x.den.log2 : ℤ) - 1) * x.den
        ≤ (2 : ℚ) ^ ((x.num.natAbs.log2 : ℤ) - (x.den.log2 : ℤ) - 1) * (2 : ℚ) ^ ((x.den.log2 : ℤ) + 1) :=
          mul_le_mul_of_nonneg_left h2.le (by positivity)
      _ = (2 : ℚ) ^ (x.num.natAbs.log2 : ℤ) := by
          rw [← zpow_add₀ (by norm_num)]; congr 1; ring
      _ ≤ _ := h1

theorem nearest_int (k : ℤ) : nearest (k : ℚ) = k := by
  unfold nearest
  simp

theorem nearest_le {m : ℚ} {k : ℤ} (h : m ≤ k) : nearest m ≤ k := by
  have h1 : ⌊m⌋ ≤ k := by exact_mod_cast (Int.floor_le m).trans h
  rcases h1.eq_or_lt with h2 | h2
  · have h3 : m = k := le_antisymm h (h2 ▸ Int.floor_le m)
    rw [h3, nearest_int]
  · unfold nearest
    simp only
    split_ifs <;> omega

theorem le_nearest {m : ℚ} {k : ℤ} (h : (k : ℚ) ≤ m) : k ≤ nearest m := by
  have h1 : k ≤ ⌊m⌋ := Int.le_floor.2 h
  unfold nearest
  simp only
  split_ifs <;> omega

/-- A multiple of a power of 2 that is not too small for `y` is a bound of the rounded `y` when it is
one of `y`. -/
theorem dbl_between {y : ℚ} {j : ℕ} (hj : j ≤ 1074) (hy : |y| ≤ 2 ^ 52 / 2 ^ j) (k : ℤ) :
    (y ≤ k / 2 ^ j → dbl y ≤ k / 2 ^ j) ∧ ((k : ℚ) / 2 ^ j ≤ y → k / 2 ^ j ≤ dbl y) := by
  unfold dbl
  split_ifs with h0
  · subst h0; simp
  · have h2 : (2 : ℚ) ^ expo y ≤ (2 : ℚ) ^ (52 - (j : ℤ)) := by
      refine (expo_le h0).trans (hy.trans_eq ?_)
      rw [zpow_sub₀ (by norm_num)]
      norm_cast
    have h3 : expo y ≤ 52 - j := (zpow_le_zpow_iff_right₀ (by norm_num)).1 h2
    simp only
    set q := max (expo y - 52) (-1074) with hq
    have hq' : q ≤ -(j : ℤ) := max_le (by omega) (by omega)
    obtain ⟨d, hd⟩ := Int.eq_ofNat_of_zero_le (show 0 ≤ -(j : ℤ) - q by omega)
    have hp : (0 : ℚ) < pow2 q := by rw [pow2_eq]; positivity
    have hk : (k : ℚ) / 2 ^ j = ((k * 2 ^ d : ℤ) : ℚ) * pow2 q := by
      rw [pow2_eq]
      push_cast
      rw [mul_assoc, ← zpow_natCast (2 : ℚ) d, ← zpow_add₀ (by norm_num), ← hd, sub_add_cancel, zpow_neg,
        zpow_natCast, div_eq_mul_inv]
    rw [hk]
    constructor
    · intro h
      refine mul_le_mul_of_nonneg_right ?_ hp.le
      exact_mod_cast nearest_le ((div_le_iff₀ hp).2 h)
    · intro h
      refine mul_le_mul_of_nonneg_right ?_ hp.le
      exact_mod_cast le_nearest ((le_div_iff₀ hp).2 h)

theorem dbl_grid {j : ℕ} (hj : j ≤ 1074) (k : ℤ) (hk : |(k : ℚ) / 2 ^ j| ≤ 2 ^ 52 / 2 ^ j) :
    dbl (k / 2 ^ j) = k / 2 ^ j :=
  le_antisymm ((dbl_between hj hk k).1 le_rfl) ((dbl_between hj hk k).2 le_rfl)

theorem dbl_neg {x : ℚ} (h : dbl x = x) : dbl (-x) = -x := by
  have he : expo (-x) = expo x := by
    unfold expo
    rw [Rat.num_neg_eq_neg_num, Rat.den_neg_eq_den, Int.natAbs_neg, abs_neg]
  unfold dbl at h ⊢
  by_cases h0 : x = 0
  · simp [h0]
  · rw [if_neg h0] at h
    rw [if_neg (by simpa using h0), he]
    simp only at h ⊢
    set q := max (expo x - 52) (-1074) with hq
    have hp : pow2 q ≠ 0 := by rw [pow2_eq]; positivity
    have h1 : x / pow2 q = nearest (x / pow2 q) := by
      rw [div_eq_iff hp]; exact h.symm
    have h2 : -x / pow2 q = ((-nearest (x / pow2 q) : ℤ) : ℚ) := by
      rw [neg_div, h1, nearest_int]; push_cast; rfl
    rw [h2, nearest_int]
    push_cast
    rw [neg_mul, h]

theorem dbl_calc {B : ℚ} {j : ℕ} (hj : j ≤ 45) (hB : dbl B = B) : Calc dbl B (2 ^ 50 / 2 ^ j) (OnGrid j) where
  big := hB
  neg x := dbl_neg
  zero := rfl
  gzero := ⟨0, by simp⟩
  gadd := by
    rintro x y ⟨k, rfl⟩ ⟨l, rfl⟩
    exact ⟨k + l, by push_cast; ring⟩
  gneg := by
    rintro x ⟨k, rfl⟩
    exact ⟨-k, by push_cast; ring⟩
  fix := by
    rintro t ⟨k, rfl⟩ h
    refine dbl_grid (by omega) k (h.trans ?_)
    gcongr <;> norm_num
  tol := by
    rintro s t ⟨k, rfl⟩ ⟨l, rfl⟩ hs ht
    have hp : (0 : ℚ) < 2 ^ j := by positivity
    have hle : (2 : ℚ) ^ j ≤ 2 ^ 45 := pow_le_pow_right₀ (by norm_num) hj
    have ht0 : 0 < dbl Signal.tol := by decide +kernel
    have ht1 : 0 < Signal.tol := by decide +kernel
    have ht2 : dbl Signal.tol < 1 / 2 ^ 46 := by decide +kernel
    have ht3 : Signal.tol < 1 / 2 ^ 46 := by decide +kernel
    have hu : (1 : ℚ) / 2 ^ 46 ≤ 1 / 2 ^ (j + 1) := by
      apply one_div_le_one_div_of_le (by positivity)
      rw [pow_succ]; linarith
    have hy : |(k : ℚ) / 2 ^ j - dbl Signal.tol| ≤ 2 ^ 52 / 2 ^ (j + 1) := by
      refine (abs_sub _ _).trans ?_
      rw [abs_of_pos ht0]
      have : (2 : ℚ) ^ 52 / 2 ^ (j + 1) = 2 * (2 ^ 50 / 2 ^ j) := by
        rw [pow_succ (2 : ℚ) j]; field_simp
      rw [this]
      have h1 : (1 : ℚ) / 2 ^ (j + 1) ≤ 2 ^ 50 / 2 ^ j := by
        rw [pow_succ, div_le_div_iff₀ (by positivity) hp]
        nlinarith
      linarith
    have up := (dbl_between (j := j + 1) (by omega) hy (2 * k)).1
    have lo := (dbl_between (j := j + 1) (by omega) hy (2 * k - 1)).2
    have e1 : ((2 * k : ℤ) : ℚ) / 2 ^ (j + 1) = k / 2 ^ j := by
      push_cast; rw [pow_succ]; field_simp
    have e2 : ((2 * k - 1 : ℤ) : ℚ) / 2 ^ (j + 1) = k / 2 ^ j - 1 / 2 ^ (j + 1) := by
      push_cast; rw [sub_div, pow_succ]; congr 1; field_simp
    rw [e1] at up
    rw [e2] at lo
    have up := up (by linarith)
    have lo := lo (by linarith)
    have e3 : (1 : ℚ) / 2 ^ j = 2 * (1 / 2 ^ (j + 1)) := by rw [pow_succ]; field_simp
    have hu0 : (0 : ℚ) < 1 / 2 ^ (j + 1) := by positivity
    rcases lt_or_ge l k with h | h
    · have h' : (l : ℚ) / 2 ^ j + 1 / 2 ^ j ≤ k / 2 ^ j := by
        rw [← add_div]
        gcongr
        exact_mod_cast h
      rw [e3] at h'
      exact ⟨fun _ => by linarith, fun _ => by linarith⟩
    · have h' : (k : ℚ) / 2 ^ j ≤ l / 2 ^ j := by gcongr
      exact ⟨fun h => by linarith, fun h => by linarith⟩

end Fp
end STLRom
