import Verif.Proofs.Stream
import Verif.Model.Tools
import Verif.Props.Formula

/-!
# Property C84: what is written does not depend on what was written before
-/

namespace STLRom
namespace Props
open Print Spec

/-- Every item is written to a stream as it would be written to a new one. -/
def C84_full : Prop := ∀ l : List OutItem, Stream.write Fmt.init l = l.flatMap (Stream.text Fmt.init)

/-- **C84**, for streams of any format, when neither samples nor signals are written to the stream and `print_point` and
`print_sample` are not called. -/
theorem C84_partial (f : Fmt) (l : List OutItem) (h : ∀ i ∈ l, ¬ Fixes i ∧ ¬ Sampled i) :
    Stream.write f l = l.flatMap (Stream.text f) := write_quiet l f h

/-- **C84**, with samples and signals among the items, when the numbers need no more than six digits. -/
theorem C84_short_partial (l : List OutItem) (h : ∀ i ∈ l, ¬ Fixes i ∧ ∀ q ∈ numbersOut i, Short q) :
    Stream.write Fmt.init l = l.flatMap (Stream.text Fmt.init) :=
  write_usual l ⟨rfl, le_refl _⟩ h

/-- `print_point` and `print_sample` themselves write the same text on every stream. -/
theorem C84_print (f : Fmt) {i : OutItem} (h : Fixes i) : Stream.text f i = Stream.text Fmt.init i := by
  cases i with
  | printPoint t v => rfl
  | printSample x => rfl
  | _ => exact absurd h id

/-- `print_trace` on a new stream writes what `dump_trace_file` writes to a file. -/
theorem C84_trace (d : Driver) : Stream.text Fmt.init (.trace d) = Text.dumpTrace number d.data := rfl

/-- A formula on a new stream, and `display_formula`: the text of C48. -/
theorem C84_formula (m : Monitor) (T : Tr) (h : m.formula = some T) :
    Stream.text Fmt.init (.formula T) = T.print ∧ Stream.text Fmt.init (.displayFormula m) = T.print ++ ['\n'] := by
  refine ⟨printOn_init T, ?_⟩
  rw [text_displayFormula, h]
  exact congrArg (· ++ ['\n']) (printOn_init T)

/-- `operator<<` of a monitor: the names in alphabetical order, separated by commas. -/
theorem C84_monitor (f : Fmt) (m : Monitor) : ∃ names : List (String × ℕ), names.Perm m.smap ∧
    names.Pairwise (fun a b => a.1 ≤ b.1) ∧
    ("Signal Names: ".toList ++ (List.intercalate ", ".toList (names.map (·.1.toList)) ++ ['\n'])) <+:
      Stream.text f (.monitor m) := by
  refine ⟨Stream.byName m.smap, List.perm_insertionSort _ _, ?_, ?_⟩
  · haveI : Std.Total (fun a b : String × ℕ => a.1 ≤ b.1) := ⟨fun a b => String.le_total _ _⟩
    have : IsTrans (String × ℕ) (fun a b => a.1 ≤ b.1) := ⟨fun a b c => String.le_trans⟩
    exact List.pairwise_insertionSort _ _
  · rw [text_monitor, listed_intercalate]
    exact ⟨_, by simp only [List.append_assoc, List.cons_append, List.nil_append]; rfl⟩

/-- A formula, a monitor and a point, in this order. -/
def writes : List OutItem :=
  [.formula (above sx (1 / 3)), .monitor (mon .LINEAR (above sx (1 / 1000000)) exD), .point 1234567 (1 / 3)]

example : Stream.write ⟨true, 3⟩ writes = writes.flatMap (Stream.text ⟨true, 3⟩) :=
  C84_partial _ _ (by
    intro i hi
    simp only [writes, List.mem_cons, List.not_mem_nil, or_false] at hi
    rcases hi with rfl | rfl | rfl <;> exact ⟨id, id⟩)

example : Stream.write Fmt.init writes =
    "x[t] > 0.333333Signal Names: x, y\nParameters: \nFormula: x[t] > 1e-06\n1.23457e+06;0.333333".toList := by
  decide +kernel

/-- A signal of two samples, with a period that is not a decimal number. -/
def thirds : Signal := ⟨[⟨0, 1 / 3, 1⟩, ⟨1 / 3, 2 / 3, 0⟩], 0, 5 / 2⟩

example : Stream.write Fmt.init [.signal thirds, .formula (above sx (1 / 4)), .signal thirds] =
    [OutItem.signal thirds, .formula (above sx (1 / 4)), .signal thirds].flatMap (Stream.text Fmt.init) :=
  C84_short_partial _ (by
    have h : ∀ q : ℚ, q = 0 ∨ q = 5 / 2 ∨ q = 1 / 4 → Short q := by
      rintro q (rfl | rfl | rfl)
      · exact .inl rfl
      · exact .inr ⟨by norm_num [abs_of_pos], 25, 1, by norm_num, by norm_num [abs_of_pos]⟩
      · exact .inr ⟨by norm_num [abs_of_pos], 25, 2, by norm_num, by norm_num [abs_of_pos]⟩
    intro i hi
    simp only [List.mem_cons, List.not_mem_nil, or_false] at hi
    rcases hi with rfl | rfl | rfl
    · refine ⟨id, fun q hq => h q ?_⟩
      simp only [numbersOut, thirds, List.mem_cons, List.not_mem_nil, or_false] at hq
      tauto
    · refine ⟨id, fun q hq => h q ?_⟩
      simp [numbersOut, constants, above, sx, num] at hq
      simp [hq]
    · refine ⟨id, fun q hq => h q ?_⟩
      simp only [numbersOut, thirds, List.mem_cons, List.not_mem_nil, or_false] at hq
      tauto)

example : Stream.text Fmt.init (.signal thirds) =
    ("def = [0, 2.5)\n" ++ "           0    0.33333333  1\n" ++ "  0.33333333    0.66666667  0\n").toList := by
  decide +kernel

example : Stream.text ⟨false, 12⟩ (.printSample ⟨0, 1 / 3, -2⟩) =
    "Time 0.00000 Value 0.33333 Derivative -2.00000\n".toList := by decide +kernel

/-- **C84 does not hold**: after `print_sample`, `display_formula` writes the formula `x > 0.000001` with a threshold of
zero. -/
theorem C84_false : ¬ C84_full := by
  intro h
  have h1 := h [.printSample ⟨0, 1, 0⟩, .displayFormula (mon .LINEAR (above sx (1 / 1000000)) exD)]
  have h2 : Stream.write Fmt.init [.printSample ⟨0, 1, 0⟩, .displayFormula (mon .LINEAR (above sx (1 / 1000000)) exD)] =
      "Time 0.00000 Value 1.00000 Derivative 0.00000\nx[t] > 0.00000\n".toList := by decide +kernel
  have h3 : [OutItem.printSample ⟨0, 1, 0⟩, .displayFormula (mon .LINEAR (above sx (1 / 1000000)) exD)].flatMap
      (Stream.text Fmt.init) = "Time 0.00000 Value 1.00000 Derivative 0.00000\nx[t] > 1e-06\n".toList := by
    decide +kernel
  rw [h2, h3] at h1
  revert h1
  decide +kernel

/-- Nor without `print_point` and `print_sample`: a signal written twice to one stream is written in two ways. -/
theorem C84_signal_false : ∃ x : Signal, Stream.write Fmt.init [.signal x, .signal x] ≠
    Stream.text Fmt.init (.signal x) ++ Stream.text Fmt.init (.signal x) := by
  refine ⟨⟨[⟨1234567, 1, 0⟩], 1234567, 1234568⟩, ?_⟩
  have h2 : Stream.write Fmt.init [.signal ⟨[⟨1234567, 1, 0⟩], 1234567, 1234568⟩,
      .signal ⟨[⟨1234567, 1, 0⟩], 1234567, 1234568⟩] =
      ("def = [1.23457e+06, 1.23457e+06)\n" ++ "     1234567             1  0\n" ++
        "def = [1234567, 1234568)\n" ++ "     1234567             1  0\n").toList := by decide +kernel
  have h3 : Stream.text Fmt.init (.signal ⟨[⟨1234567, 1, 0⟩], 1234567, 1234568⟩) =
      ("def = [1.23457e+06, 1.23457e+06)\n" ++ "     1234567             1  0\n").toList := by decide +kernel
  rw [h2, h3]
  decide +kernel

end Props
end STLRom
