import Verif.Proofs.Double

/-!
# The numbers `dbl` returns

A number with 53 bits is a bound of the rounded `z` when it is one of `z`; rounding twice is rounding
once.
-/

namespace STLRom
namespace Fp

/-- A number with 53 bits. -/
def Rep (y : ℚ) : Prop := ∃ N q : ℤ, |N| ≤ 2 ^ 53 ∧ -1074 ≤ q ∧ y = N * (2 : ℚ) ^ q

theorem lt_expo {x : ℚ} (hx : x ≠ 0) : |x| < (2 : ℚ) ^ (expo x + 1) := by
  have hn : x.num.natAbs ≠ 0 := by simpa using hx
  have h1 : (x.num.natAbs : ℚ) < (2 : ℚ) ^ ((x.num.natAbs.log2 : ℤ) + 1) := by
    have : x.num.natAbs < 2 ^ (x.num.natAbs.log2 + 1) := Nat.lt_log2_self
    exact_mod_cast this
  have h2 : (2 : ℚ) ^ (x.den.log2 : ℤ) ≤ (x.den : ℚ) := by
    rw [zpow_natCast]
    exact_mod_cast Nat.log2_self_le x.den_nz
  have hd : (0 : ℚ) < x.den := by exact_mod_cast x.den_pos
  have hx' : |x| = (x.num.natAbs : ℚ) / x.den := by
    conv_lhs => rw [← Rat.num_div_den x]
    rw [abs_div, abs_of_pos hd, Nat.cast_natAbs, Int.cast_abs]
  unfold expo
  simp only [pow2_eq]
  split_ifs with h
  · rw [hx', div_lt_iff₀ hd]
    calc (x.num.natAbs : ℚ) < (2 : ℚ) ^ ((x.num.natAbs.log2 : ℤ) + 1) := h1
      _ = (2 : ℚ) ^ ((x.num.natAbs.log2 : ℤ) - (x.den.log2 : ℤ) + 1) * (2 : ℚ) ^ (x.den.log2 : ℤ) := by
          rw [← zpow_add₀ (by norm_num)]; congr 1; ring
      _ ≤ _ := mul_le_mul_of_nonneg_left h2 (by positivity)
  · rw [sub_add_cancel]
    exact not_le.1 h

theorem rep_dbl (x : ℚ) : Rep (dbl x) := by
  unfold dbl
  split_ifs with h0
  · exact ⟨0, 0, by norm_num, by norm_num, by simp⟩
  · simp only
    set q := max (expo x - 52) (-1074) with hq
    refine ⟨nearest (x / pow2 q), q, ?_, le_max_right _ _, by rw [pow2_eq]⟩
    have hp : (0 : ℚ) < pow2 q := by rw [pow2_eq]; positivity
    have h1 : |x| ≤ 2 ^ 53 * pow2 q := by
      refine (lt_expo h0).le.trans ?_
      rw [pow2_eq, show (2 : ℚ) ^ 53 = (2 : ℚ) ^ (53 : ℤ) by norm_cast, ← zpow_add₀ (by norm_num)]
      exact zpow_le_zpow_right₀ (by norm_num) (by have := le_max_left (expo x - 52) (-1074); omega)
    rw [abs_le] at h1 ⊢
    refine ⟨le_nearest ?_, nearest_le ?_⟩
    · rw [le_div_iff₀ hp]; push_cast; linarith [h1.1]
    · rw [div_le_iff₀ hp]; push_cast; linarith [h1.2]

theorem dbl_rep {y z : ℚ} (hy : Rep y) : (z ≤ y → dbl z ≤ y) ∧ (y ≤ z → y ≤ dbl z) := by
  obtain ⟨N, q, hN, hq, rfl⟩ := hy
  unfold dbl
  split_ifs with h0
  · subst h0; exact ⟨id, id⟩
  simp only
  set r := max (expo z - 52) (-1074) with hr
  have hp : (0 : ℚ) < pow2 r := by rw [pow2_eq]; positivity
  have mult : ∀ k : ℤ, (z ≤ k * pow2 r → nearest (z / pow2 r) * pow2 r ≤ k * pow2 r) ∧
      (k * pow2 r ≤ z → k * pow2 r ≤ nearest (z / pow2 r) * pow2 r) := by
    intro k
    constructor
    · intro h
      refine mul_le_mul_of_nonneg_right ?_ hp.le
      exact_mod_cast nearest_le ((div_le_iff₀ hp).2 h)
    · intro h
      refine mul_le_mul_of_nonneg_right ?_ hp.le
      exact_mod_cast le_nearest ((le_div_iff₀ hp).2 h)
  rcases le_or_gt r q with h | h
  · obtain ⟨d, hd⟩ := Int.eq_ofNat_of_zero_le (show 0 ≤ q - r by omega)
    have hk : (N : ℚ) * (2 : ℚ) ^ q = ((N * 2 ^ d : ℤ) : ℚ) * pow2 r := by
      rw [pow2_eq]
      push_cast
      rw [mul_assoc, ← zpow_natCast (2 : ℚ) d, ← zpow_add₀ (by norm_num), ← hd, sub_add_cancel]
    rw [hk]
    exact mult _
  · have hr' : r = expo z - 52 := by omega
    have hw : (2 : ℚ) ^ expo z = ((2 ^ 52 : ℤ) : ℚ) * pow2 r := by
      rw [pow2_eq, hr', show ((2 ^ 52 : ℤ) : ℚ) = (2 : ℚ) ^ (52 : ℤ) by norm_num, ← zpow_add₀ (by norm_num)]
      congr 1; ring
    have hyw : |(N : ℚ) * (2 : ℚ) ^ q| ≤ (2 : ℚ) ^ expo z := by
      rw [abs_mul, abs_of_pos (show (0 : ℚ) < (2 : ℚ) ^ q by positivity)]
      have hN' : |(N : ℚ)| ≤ (2 : ℚ) ^ (53 : ℤ) := by exact_mod_cast hN
      calc |(N : ℚ)| * (2 : ℚ) ^ q ≤ (2 : ℚ) ^ (53 : ℤ) * (2 : ℚ) ^ q :=
            mul_le_mul_of_nonneg_right hN' (by positivity)
        _ = (2 : ℚ) ^ (53 + q) := by rw [← zpow_add₀ (by norm_num)]
        _ ≤ _ := zpow_le_zpow_right₀ (by norm_num) (by omega)
    have hz := expo_le h0
    have m1 := mult (2 ^ 52)
    have m2 := mult (-(2 ^ 52))
    have e2 : ((-(2 ^ 52) : ℤ) : ℚ) * pow2 r = -(2 : ℚ) ^ expo z := by
      rw [hw]; push_cast; ring
    rw [← hw] at m1
    rw [e2] at m2
    have hyw' := abs_le.1 hyw
    rcases lt_or_gt_of_ne h0 with hneg | hpos
    · rw [abs_of_neg hneg] at hz
      constructor
      · intro _
        exact (m2.1 (by linarith)).trans hyw'.1
      · intro hle
        exact (by linarith : (N : ℚ) * (2 : ℚ) ^ q ≤ -(2 : ℚ) ^ expo z).trans (m2.2 (by linarith))
    · rw [abs_of_pos hpos] at hz
      constructor
      · intro hle
        exact (m1.1 (by linarith)).trans (by linarith)
      · intro _
        exact hyw'.2.trans (m1.2 hz)

theorem dbl_dbl (x : ℚ) : dbl (dbl x) = dbl x :=
  le_antisymm ((dbl_rep (rep_dbl x)).1 le_rfl) ((dbl_rep (rep_dbl x)).2 le_rfl)

/-- A double is a bound of the rounded `z` when it is one of `z`. -/
theorem dbl_le {y z : ℚ} (hy : dbl y = y) (h : z ≤ y) : dbl z ≤ y := (dbl_rep (hy ▸ rep_dbl y)).1 h

theorem le_dbl {y z : ℚ} (hy : dbl y = y) (h : y ≤ z) : y ≤ dbl z := (dbl_rep (hy ▸ rep_dbl y)).2 h

end Fp
end STLRom
