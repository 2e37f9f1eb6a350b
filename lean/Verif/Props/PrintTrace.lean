import Verif.Model.PrintTrace
import Verif.Props.Stream

/-!
# Property C90: printing a part of a trace
-/

namespace STLRom
namespace Props
open Print Spec

/-- `print(data, n)` writes what `print` writes for the first `n` rows. -/
def C90_full : Prop := ∀ (f : Fmt) (data : List (List ℚ)) (n : ℤ),
  Stream.printSome f data n = Stream.printAll f (data.take n.toNat)

/-- **C90**, for positive `n`. -/
theorem C90_partial (f : Fmt) (data : List (List ℚ)) {n : ℤ} (hn : 1 ≤ n) :
    Stream.printSome f data n = Stream.printAll f (data.take n.toNat) := by
  have key : ∀ (data : List (List ℚ)) (k : ℤ), k < n →
      Stream.printLoop f n k data = Stream.printAll f (data.take (n - k).toNat) := by
    intro data
    induction data with
    | nil => intro k _; simp [Stream.printLoop, Stream.printAll]
    | cons row l ih =>
      intro k hk
      obtain ⟨j, hj⟩ : ∃ j, (n - k).toNat = j + 1 := ⟨(n - k).toNat - 1, by omega⟩
      rw [hj, List.take_succ_cons, Stream.printLoop, Stream.printAll]
      congr 1
      split_ifs with h
      · have : j = 0 := by omega
        rw [this, List.take_zero, Stream.printAll]
      · rw [ih (k + 1) (by omega)]
        congr 2
        omega
  simpa [Stream.printSome] using key data 0 (by omega)

/-- Every number from that of the rows on gives the whole trace, as `print_trace` of a driver writes it. -/
theorem C90_all_partial (f : Fmt) (d : Driver) {n : ℤ} (h : (d.data.length : ℤ) ≤ n) :
    Stream.printAll f d.data = Stream.text f (.trace d) ∧
    Stream.printSome f d.data n = Stream.text f (.trace d) := by
  have h1 : Stream.printAll f d.data = Stream.text f (.trace d) := by
    show Stream.printAll f d.data = d.data.flatMap _
    induction d.data with
    | nil => rfl
    | cons row l ih => rw [Stream.printAll, ih, List.flatMap_cons]
  refine ⟨h1, ?_⟩
  by_cases hn : 1 ≤ n
  · rw [C90_partial f _ hn, List.take_of_length_le (by omega), h1]
  · have : d.data = [] := List.length_eq_zero_iff.1 (by omega)
    rw [← h1, this]
    rfl

/-- For 0 and negative numbers the first row is written. -/
theorem C90_first_false (f : Fmt) (row : List ℚ) (l : List (List ℚ)) {n : ℤ} (hn : n ≤ 0) :
    Stream.printSome f (row :: l) n = Stream.printAll f [row] ∧
    Stream.printSome f (row :: l) n ≠ Stream.printAll f ((row :: l).take n.toNat) := by
  have h1 : Stream.printSome f (row :: l) n = Stream.printAll f [row] := by
    rw [Stream.printSome, Stream.printLoop, if_pos (by omega), Stream.printAll, Stream.printAll]
  refine ⟨h1, ?_⟩
  rw [h1, show n.toNat = 0 by omega, List.take_zero]
  simp [Stream.printAll]

theorem C90_false : ¬ C90_full := fun h => (C90_first_false Fmt.init [0, 1] [] (le_refl 0)).2 (h _ _ _)

example : Stream.printSome Fmt.init exD 2 = "0 0 1 \n1 2 -1 \n".toList := by
  rw [C90_partial _ _ (by norm_num)]
  decide +kernel

/-- Two rows of a driver. -/
def phiTrace : Driver := Driver.ofData [[0, 1 / 2], [1, 2]]

example : Stream.printSome Fmt.init phiTrace.data 3 = "0 0.5 \n1 2 \n".toList := by
  rw [(C90_all_partial Fmt.init phiTrace (by decide)).2]
  decide +kernel

end Props
end STLRom
