import Verif.Model.Print
import Verif.Spec.Show
import Verif.Proofs.Literal
import Mathlib.Tactic.Linarith
import Mathlib.Tactic.FieldSimp
import Mathlib.Tactic.Ring
import Mathlib.Tactic.NormNum
import Mathlib.Tactic.Positivity

/-!
# Printed numbers
-/

namespace STLRom
namespace Props
open Print Spec

/-- The last `k` digits of `n`. -/
def tens : ℕ → ℕ → List (Fin 10)
  | 0, _ => []
  | k + 1, n => tens k (n / 10) ++ [⟨n % 10, Nat.mod_lt _ (by decide)⟩]

theorem tens_length : ∀ k n, (tens k n).length = k
  | 0, _ => rfl
  | k + 1, n => by simp [tens, tens_length k]

theorem tens_chars : ∀ k n, Lit.chars (tens k n) = digits k n
  | 0, _ => rfl
  | k + 1, n => by
    have ih := tens_chars k (n / 10)
    simp only [Lit.chars] at ih
    simp [tens, digits, digit, Lit.chars, ih]

theorem nat_snoc (ds : List (Fin 10)) (e : Fin 10) : Lit.nat (ds ++ [e]) = 10 * Lit.nat ds + e := by
  simp [Lit.nat]

theorem tens_nat : ∀ k n, Lit.nat (tens k n) = n % 10 ^ k
  | 0, n => by simp [tens, Lit.nat, Nat.mod_one]
  | k + 1, n => by
    rw [tens, nat_snoc, tens_nat k, pow_succ, Nat.mul_comm (10 ^ k) 10, Nat.mod_mul]
    simp only
    omega

/-- The digits without the zeros at the end. -/
theorem strip_zeros (ds : List (Fin 10)) : ∃ es : List (Fin 10),
    Lit.chars es = ((Lit.chars ds).reverse.dropWhile (· == '0')).reverse ∧
    (Lit.nat es : ℚ) / 10 ^ es.length = (Lit.nat ds : ℚ) / 10 ^ ds.length := by
  induction ds using List.reverseRecOn with
  | nil => exact ⟨[], rfl, rfl⟩
  | append_singleton ds e ih =>
    have hc : Lit.chars (ds ++ [e]) = Lit.chars ds ++ [Char.ofNat (48 + e.val)] := by simp [Lit.chars]
    by_cases h0 : e = 0
    · obtain ⟨es, h1, h2⟩ := ih
      refine ⟨es, ?_, ?_⟩
      · rw [hc, h0, h1]
        simp
      · rw [h2, nat_snoc, h0, List.length_append, List.length_singleton, pow_succ]
        push_cast
        simp only [Fin.val_zero, Nat.cast_zero, add_zero]
        rw [mul_comm (10 : ℚ), mul_div_mul_right _ _ (by norm_num)]
    · refine ⟨ds ++ [e], ?_, rfl⟩
      have : (Char.ofNat (48 + e.val) == '0') = false := by
        clear hc
        revert h0
        revert e
        decide
      rw [hc, List.reverse_append, List.reverse_singleton, List.singleton_append,
        List.dropWhile_cons_of_neg (by simp [this])]
      simp

theorem nearest_nat (n : ℕ) : nearest n = n := by
  simp [nearest]

theorem printed_lit {q : ℚ} (h : Short q) : ∃ l : Lit, l.word = number q ∧ l.value = q ∧ l.whole ≠ [] ∧
    (l.neg = true ↔ q < 0) := by
  by_cases hq : q = 0
  · subst hq
    exact ⟨⟨false, [0], []⟩, by decide, by simp [Lit.value, Lit.nat], by simp, by simp⟩
  obtain ⟨h4, n, k, hn, hnk⟩ := h.resolve_left hq
  set a := |q| with ha
  have ha0 : 0 < a := abs_pos.2 hq
  set x := Int.log 10 a with hx
  have hx4 : -4 ≤ x := by
    refine (Int.zpow_le_iff_le_log (b := 10) (by norm_num) ha0).1 ?_
    refine le_trans (le_of_eq ?_) h4
    norm_num
  have hlo : (10 : ℚ) ^ x ≤ a := by exact_mod_cast Int.zpow_log_le_self (b := 10) (by norm_num) ha0
  have hup : a < (10 : ℚ) ^ (x + 1) := by exact_mod_cast Int.lt_zpow_succ_log_self (b := 10) (by norm_num) a
  have h10 : (0 : ℚ) < 10 ^ k := by positivity
  have hxk : x + k < 6 := by
    have h1 : (10 : ℚ) ^ (x + k) < 10 ^ (6 : ℤ) := by
      rw [zpow_add₀ (by norm_num), zpow_natCast]
      calc (10 : ℚ) ^ x * 10 ^ k ≤ a * 10 ^ k := by gcongr
        _ = n := by rw [hnk]; field_simp
        _ < 10 ^ (6 : ℤ) := by exact_mod_cast hn
    exact (zpow_lt_zpow_iff_right₀ (by norm_num)).1 h1
  obtain ⟨j, hj⟩ : ∃ j : ℕ, (j : ℤ) = 5 - x - k := ⟨(5 - x - k).toNat, by omega⟩
  set N := n * 10 ^ j with hN
  have hNa : a * 10 ^ (5 - x) = (N : ℚ) := by
    rw [hnk, show (5 - x : ℤ) = j + k by omega, zpow_add₀ (by norm_num), zpow_natCast, zpow_natCast, hN]
    push_cast
    field_simp
  have hN6 : N < 10 ^ 6 := by
    have : (N : ℚ) < 10 ^ 6 := by
      rw [← hNa]
      calc a * 10 ^ (5 - x) < 10 ^ (x + 1) * 10 ^ (5 - x) :=
          mul_lt_mul_of_pos_right hup (zpow_pos (by norm_num) _)
        _ = 10 ^ 6 := by rw [← zpow_add₀ (by norm_num), show x + 1 + (5 - x) = 6 by ring]; norm_num
    exact_mod_cast this
  have hs : significant a = (N, x) := by
    unfold significant
    simp only [← hx, hNa, nearest_nat]
    rw [if_neg (by omega)]
  obtain ⟨K, hK⟩ : ∃ K : ℕ, K = (5 - x).toNat := ⟨_, rfl⟩
  have haK : a = (N : ℚ) / 10 ^ K := by
    rw [← hNa, show (5 - x : ℤ) = (K : ℤ) by omega, zpow_natCast]
    field_simp
  obtain ⟨es, he1, he2⟩ := strip_zeros (tens K N)
  refine ⟨⟨decide (q < 0), tens (x.toNat + 1) (N / 10 ^ K), es⟩, ?_, ?_, ?_, by simp⟩
  · unfold number
    rw [if_neg hq]
    simp only [← ha, hs, ← hK]
    have hx5 : -4 ≤ x ∧ x < 6 := ⟨hx4, by omega⟩
    simp only [Lit.word, tens_chars, decide_eq_true_eq, List.append_assoc, hx5, and_self, if_true]
    congr 2
    unfold fraction
    rw [← tens_chars K N, ← he1]
    cases es with
    | nil => rfl
    | cons e es => simp [Lit.chars]
  · simp only [Lit.value, he2, tens_length, tens_nat, decide_eq_true_eq]
    have hw : N / 10 ^ K % 10 ^ (x.toNat + 1) = N / 10 ^ K := by
      apply Nat.mod_eq_of_lt
      rw [Nat.div_lt_iff_lt_mul (by positivity), ← pow_add]
      exact lt_of_lt_of_le hN6 (Nat.pow_le_pow_right (by norm_num) (by omega))
    have hsum : ((N / 10 ^ K % 10 ^ (x.toNat + 1) : ℕ) : ℚ) + ((N % 10 ^ K : ℕ) : ℚ) / 10 ^ K = a := by
      rw [hw, haK, eq_div_iff (by positivity), add_mul, div_mul_cancel₀ _ (by positivity)]
      exact_mod_cast Nat.div_add_mod' N (10 ^ K)
    rw [hsum, ha]
    split_ifs with h0
    · rw [abs_of_neg h0]; ring
    · rw [abs_of_nonneg (not_lt.1 h0)]; ring
  · simp [tens]

end Props
end STLRom
