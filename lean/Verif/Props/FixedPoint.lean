import Verif.Props.Stream

/-!
# Property C84: what `print_point` and `print_sample` write
-/

namespace STLRom
namespace Props
open Print Spec

theorem nearest_close {a : ℚ} (ha : 0 ≤ a) : |(nearest a : ℚ) - a| ≤ 1 / 2 := by
  have h1 : ((⌊a⌋.toNat : ℕ) : ℚ) = ⌊a⌋ := by
    have : ((⌊a⌋.toNat : ℤ) : ℚ) = ⌊a⌋ := by rw [Int.toNat_of_nonneg (Int.floor_nonneg.2 ha)]
    exact_mod_cast this
  have h2 := Int.floor_le a
  have h3 := Int.lt_floor_add_one a
  unfold nearest
  simp only [h1]
  rw [abs_le]
  split_ifs with c1 c2 c3
  · rw [h1]; constructor <;> linarith
  · push_cast; rw [h1]; constructor <;> linarith
  · rw [h1]; constructor <;> linarith
  · push_cast; rw [h1]; constructor <;> linarith

/-- A number in fixed format: `p` digits after the point, and at most half a unit of the last one away. -/
theorem fixedPoint_lit {p : ℕ} (hp : 0 < p) (q : ℚ) : ∃ l : Lit, l.word = fixedPoint p q ∧
    l.frac.length = p ∧ l.whole ≠ [] ∧ |l.value - q| ≤ 1 / 2 / 10 ^ p := by
  set n := nearest (|q| * 10 ^ p) with hn
  have h10 : (0 : ℚ) < 10 ^ p := by positivity
  refine ⟨⟨decide (q < 0), tens (Nat.log 10 (n / 10 ^ p) + 1) (n / 10 ^ p), tens p n⟩, ?_, tens_length _ _, ?_, ?_⟩
  · have hf : tens p n ≠ [] := by
      intro h
      have := tens_length p n
      rw [h] at this
      simp at this
      omega
    unfold Lit.word fixedPoint whole
    simp only [tens_chars, if_neg hf, ← hn, decide_eq_true_eq, List.append_assoc]
  · intro h
    have := tens_length (Nat.log 10 (n / 10 ^ p) + 1) (n / 10 ^ p)
    simp only at h
    rw [h] at this
    simp at this
  · have hw : Lit.nat (tens (Nat.log 10 (n / 10 ^ p) + 1) (n / 10 ^ p)) = n / 10 ^ p := by
      rw [tens_nat]
      exact Nat.mod_eq_of_lt (Nat.lt_pow_succ_log_self (by norm_num) _)
    have hv : ((n / 10 ^ p : ℕ) : ℚ) + ((n % 10 ^ p : ℕ) : ℚ) / 10 ^ p = n / 10 ^ p := by
      have h := Nat.div_add_mod n (10 ^ p)
      have h' : (10 : ℚ) ^ p * ((n / 10 ^ p : ℕ) : ℚ) + ((n % 10 ^ p : ℕ) : ℚ) = n := by exact_mod_cast h
      rw [← h']
      field_simp
    have hc := nearest_close (a := |q| * 10 ^ p) (by positivity)
    rw [← hn] at hc
    have hd : |(n : ℚ) / 10 ^ p - (|q|)| ≤ 1 / 2 / 10 ^ p := by
      rw [show (n : ℚ) / 10 ^ p - (|q|) = (n - (|q|) * 10 ^ p) / 10 ^ p by field_simp, abs_div, abs_of_pos h10]
      gcongr
    unfold Lit.value
    simp only [hw, tens_nat, tens_length, hv, decide_eq_true_eq]
    split_ifs with hq
    · rw [abs_of_neg hq] at hd
      rw [show -1 * ((n : ℚ) / 10 ^ p) - q = -((n : ℚ) / 10 ^ p - -q) by ring, abs_neg]
      exact hd
    · rw [abs_of_nonneg (not_lt.1 hq)] at hd
      rw [one_mul]
      exact hd

/-- `print_point` and `print_sample` write every number with five digits after the point, rounded: the number
written is at most half of 1e-5 away. -/
theorem C84_fixed (f : Fmt) (t v d : ℚ) : ∃ a b c : Lit, |a.value - t| ≤ 1 / 2 / 10 ^ 5 ∧ |b.value - v| ≤ 1 / 2 / 10 ^ 5 ∧
    |c.value - d| ≤ 1 / 2 / 10 ^ 5 ∧ a.frac.length = 5 ∧ b.frac.length = 5 ∧ c.frac.length = 5 ∧
    Stream.text f (.printPoint t v) = "Time ".toList ++ (a.word ++ (" Value ".toList ++ (b.word ++ ['\n']))) ∧
    Stream.text f (.printSample ⟨t, v, d⟩) = "Time ".toList ++ (a.word ++ (" Value ".toList ++ (b.word ++
      (" Derivative ".toList ++ (c.word ++ ['\n']))))) := by
  obtain ⟨a, a1, a2, _, a3⟩ := fixedPoint_lit (p := 5) (by norm_num) t
  obtain ⟨b, b1, b2, _, b3⟩ := fixedPoint_lit (p := 5) (by norm_num) v
  obtain ⟨c, c1, c2, _, c3⟩ := fixedPoint_lit (p := 5) (by norm_num) d
  refine ⟨a, b, c, a3, b3, c3, a2, b2, c2, ?_, ?_⟩
  · rw [a1, b1]; rfl
  · rw [a1, b1, c1]; rfl

/-- 0.000006 is written as 0.00001. -/
example : Stream.text Fmt.init (.printPoint (3 / 500000) (-7 / 3)) = "Time 0.00001 Value -2.33333\n".toList := by
  decide +kernel

end Props
end STLRom
