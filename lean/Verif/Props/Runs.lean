import Verif.Props.UntilLin
import Verif.Proofs.RunsEval

/-!
# Property C81: the evaluation of a formula with `until` returns a number when the trace covers it
-/

namespace STLRom
namespace Props
open Signal Spec

/-- The full claim: on a trace that covers everything the formula looks at, `eval_rob` returns a number, with
any interpolation and also for formulas with `until` (with intervals of positive length). -/
def C81_full : Prop := ∀ (g : Globals) (m : Monitor) (n : ℕ) (T : Tr) (s e : ℚ),
  m.formula = some T → m.sem = .SPACE → m.params.lookup "" = none → WellShaped n m.data →
  IsUntilFormula n m.params T → 0 ≤ s → s ≤ e → Covers m.data s (e + reach m.params T) →
    ∃ v, (m.evalRob g s e).2.2 = .ok v

/-- C81 where no `until` contains another one or is itself an operand of `and`, `or` or `=>`, and the left
operands of the comparisons are single signals or constants (or there is a row at the end of the evaluation
interval).  Missing: sums and products (false, `C81_false`), nested `until` (false, `C81_nested_false`), and
`until` below `and`, `or` and `=>` (false, `C81_bound_false`; `C81_linear_partial` and `C81_previous_partial` have
the cases where it holds). -/
theorem C81_partial (g : Globals) (m : Monitor) (n : ℕ) (T : Tr) (s e : ℚ) (h : RunReady n m T s e)
    (hu : UntilPlain n m.params T) (ha : UntilsApart T) : ∃ v, (m.evalRob g s e).2.2 = .ok v := by
  obtain ⟨g', m', v, h⟩ := evalRob_ready (g := g) h hu ha
  exact ⟨v, by rw [h]⟩

/-- The first of the three computations of `eval_rob`, `compute_robustness`, returns also for nested `until` and for
`until` below Boolean operators.  Missing: the two others, and sums and products without a row at the end. -/
theorem C81_first_partial (g : Globals) (m : Monitor) (n : ℕ) (T : Tr) (s e : ℚ) (h : RunReady n m T s e) :
    ∃ T' v, Tr.computeRob ⟨g.B, m.sem, m.ip, m.data, m.params⟩ (Monitor.prepare m.params s e T) = .ok (T', v) :=
  rob_ready (g := g) h

/-- With LINEAR interpolation the number is returned and is the robustness, for the formulas of C80, with
`until` also below `and`, `or` and `=>` if its operands begin strictly inside `±B`.  Missing: as in C80. -/
theorem C81_linear_partial (g : Globals) (m : Monitor) (n : ℕ) (T : Tr) (t : ℚ) (h : LinNestReady n g.B m T t)
    (hi : BoolInside .LINEAR g.B m.data m.params t T) :
    ∃ g' m' v, m.evalRob1 g t = (g', m', .ok v) ∧ rob .LINEAR m.data m.params T t = er v :=
  evalRob_lin_runs h hi

/-- With PREVIOUS interpolation the number is returned and is the robustness, for the formulas of C22 in which no
`until` contains another one.  Missing: nested `until` and the formulas excluded by `NestReady`. -/
theorem C81_previous_partial (g : Globals) (m : Monitor) (n : ℕ) (T : Tr) (t : ℚ) (h : NestReady n g.B m T t)
    (hu : UntilPlain n m.params T) (hi : BoolInside .PREVIOUS g.B m.data m.params t T) :
    ∃ g' m' v, m.evalRob1 g t = (g', m', .ok v) ∧ rob .PREVIOUS m.data m.params T t = er v :=
  evalRob_nest_runs h hu hi

/-! ### Concrete formulas -/

/-- `alw_[0,1] not ((ev_[0,1] x > 0) until_[0,1] y > 0)`. -/
def plainU : Tr :=
  alwT 0 1 (.not .init (.untl .init (evT 0 1 (above sx 0)) (lit 0 1) (above sy 0)))

theorem plainU_ready (ip : Interpol) : RunReady 2 (mon ip plainU crossD) plainU 0 1 := by
  have hx : IsUntilFormula 2 [] (above sx 0) := ⟨⟨1, rfl, by decide, by decide⟩, trivial⟩
  have hy : IsUntilFormula 2 [] (above sy 0) := ⟨⟨2, rfl, by decide, by decide⟩, trivial⟩
  have z0 : (0 : ℚ) ≤ 0 := le_rfl
  have z1 : (0 : ℚ) < 1 := by norm_num
  exact ⟨rfl, rfl, rfl, crossD_rows, ⟨z0, z1.le, z0, z1, ⟨z0, z1.le, hx⟩, hy⟩,
    ⟨Or.inl trivial, Or.inl trivial⟩, z0, z1.le, ⟨_, 0, rfl, rfl, le_rfl⟩,
    ⟨_, 5, rfl, rfl, show (1 : ℚ) + reach [] plainU ≤ 5 by decide +kernel⟩⟩

theorem plainU_plain : UntilPlain 2 [] plainU :=
  ⟨⟨le_rfl, zero_le_one, ⟨1, rfl, by decide, by decide⟩, trivial⟩, ⟨2, rfl, by decide, by decide⟩, trivial⟩

example : ∃ v, ((mon .PREVIOUS plainU crossD).evalRob .init 0 1).2.2 = .ok v :=
  C81_partial _ _ 2 plainU 0 1 (plainU_ready .PREVIOUS) plainU_plain trivial

example : ∃ v, ((mon .LINEAR plainU crossD).evalRob .init 0 1).2.2 = .ok v :=
  C81_partial _ _ 2 plainU 0 1 (plainU_ready .LINEAR) plainU_plain trivial

theorem linU_inside : BoolInside .LINEAR Globals.init.B crossD [] 0 linU := by
  have h4 : (4 : ℚ) < Globals.init.B := by decide +kernel
  have lo : er (-Globals.init.B) < er (-4) :=
    lt_of_le_of_ne (er_le.2 (by linarith)) fun e => absurd (er_inj e) (by linarith)
  have hi : er 4 < er Globals.init.B := lt_of_le_of_ne (er_le.2 h4.le) fun e => absurd (er_inj e) h4.ne
  have bx : ∀ t : ℚ, 0 ≤ t → Inside Globals.init.B (rob .LINEAR crossD [] (above sx 0) t) := fun t h => by
    have w := trace_abs (P := []) (K := 4) crossD_rows cross_head
      (by decide) (k := .greater) (l := sx) (r := num 0) ⟨trivial, trivial⟩ (by decide +kernel) t h
    exact ⟨lo.trans_le (er_le.2 w.1), lt_of_le_of_lt (er_le.2 w.2) hi⟩
  have by' : ∀ t : ℚ, 0 ≤ t → Inside Globals.init.B (rob .LINEAR crossD [] (above sy 0) t) := fun t h => by
    have w := trace_abs (P := []) (K := 4) crossD_rows cross_head
      (by decide) (k := .greater) (l := sy) (r := num 0) ⟨trivial, trivial⟩ (by decide +kernel) t h
    exact ⟨lo.trans_le (er_le.2 w.1), lt_of_le_of_lt (er_le.2 w.2) hi⟩
  refine ⟨trivial, ⟨trivial, trivial, ⟨trivial, trivial, bx _ ?_, by' _ ?_⟩, trivial, trivial, bx _ ?_, by' _ ?_⟩,
    trivial, trivial⟩ <;> decide +kernel

example : ∃ g' m' v, (mon .LINEAR linU crossD).evalRob1 .init 0 = (g', m', .ok v) ∧ rob .LINEAR crossD [] linU 0 = er v :=
  C81_linear_partial .init (mon .LINEAR linU crossD) 2 linU 0 linU_ready linU_inside

/-- `ev_[0,1] not (x > 0 until_[1,3] y > 0)`. -/
def shiftU : Tr := evT 0 1 (.not .init (xUy 1 3))

theorem shiftU_ready : NestReady 2 Globals.init.B (mon .PREVIOUS shiftU crossD) shiftU 0 := by
  refine ⟨rfl, rfl, rfl, rfl, crossD_rows, ?_, ?_, ?_, le_rfl, ?_⟩
  · exact ⟨show (0 : ℚ) ≤ 0 by norm_num, show (0 : ℚ) ≤ 1 by norm_num, show (0 : ℚ) ≤ 1 by norm_num,
      show (1 : ℚ) < 3 by norm_num, ⟨⟨1, rfl, by decide, by decide⟩, trivial⟩, ⟨2, rfl, by decide, by decide⟩, trivial⟩
  · refine ⟨show (0 : ℚ) + 0 < 0 + 1 by norm_num, Or.inl ⟨trivial, trivial⟩, Or.inl ⟨trivial, trivial⟩, ?_⟩
    refine fun _ => ⟨3, show (0 : ℚ) + 0 + 1 ≤ 3 by norm_num, show (3 : ℚ) < 0 + 1 + 3 by norm_num, fun t k1 k2 => ?_⟩
    show er (margin .greater (trace .PREVIOUS crossD 2 t) 0) =
      er (margin .greater (trace .PREVIOUS crossD 2 (0 + 1 + 3)) 0)
    have k2 : t ≤ 0 + 1 + 3 := k2
    rw [crossD_y t k1 (by linarith), crossD_y _ (by norm_num) (by norm_num)]
  · refine ⟨fun t h _ => cross_x 0 (by decide +kernel) t ?_, fun t h _ => cross_y 0 (by decide +kernel) t ?_⟩
    · exact le_trans (show (0 : ℚ) ≤ 0 + 0 by norm_num) h
    · exact le_trans (show (0 : ℚ) ≤ 0 + 0 + 1 by norm_num) h
  · exact ⟨⟨_, 0, rfl, rfl, le_rfl⟩, ⟨_, 5, rfl, rfl, by decide +kernel⟩⟩

example : ∃ g' m' v, (mon .PREVIOUS shiftU crossD).evalRob1 .init 0 = (g', m', .ok v) ∧
    rob .PREVIOUS crossD [] shiftU 0 = er v :=
  C81_previous_partial .init (mon .PREVIOUS shiftU crossD) 2 shiftU 0 shiftU_ready
    ⟨⟨⟨1, rfl, by decide, by decide⟩, trivial⟩, ⟨2, rfl, by decide, by decide⟩, trivial⟩ trivial

/-! ### A sum -/

/-- `x + y > 0 until_[1,2] y > 0`. -/
def sumU : Tr := .untl .init (above (.plus .init sx sy) 0) (lit 1 2) (above sy 0)

def sumD : List (List ℚ) := [[0, 3, 1], [1, 2, 2], [10, 2, 3]]

theorem sumD_rows : WellShaped 2 sumD := by
  refine ⟨by decide +kernel, ?_⟩
  simp only [sumD, List.pairwise_cons, List.mem_cons, List.not_mem_nil, or_false]
  simp

/-- The claim is false for sums: the signal of `x + y` ends with its last sample (C53), before the window of the
`until` begins, and the evaluation is undefined behaviour. -/
theorem C81_false : ¬ C81_full := by
  intro h
  obtain ⟨v, hv⟩ := h .init (mon .LINEAR sumU sumD) 2 sumU 0 0 rfl rfl rfl sumD_rows
    ⟨show (0 : ℚ) ≤ 1 by norm_num, show (1 : ℚ) < 2 by norm_num,
      ⟨⟨⟨1, rfl, by decide, by decide⟩, 2, rfl, by decide, by decide⟩, trivial⟩, ⟨2, rfl, by decide, by decide⟩, trivial⟩
    le_rfl le_rfl ⟨⟨_, 0, rfl, rfl, le_rfl⟩, ⟨_, 10, rfl, rfl, by decide +kernel⟩⟩
  rw [show ((mon .LINEAR sumU sumD).evalRob .init 0 0).2.2 = .error .ub by decide +kernel] at hv
  cases hv

/-! ### Nested `until` -/

/-- `x > 0 and ((x > 0 until_[1,2] y > 0) until_[0,1] y > 0)`. -/
def innerU : Tr := .and .init (above sx 0) (.untl .init (xUy 1 2) (lit 0 1) (above sy 0))

def innerD : List (List ℚ) := [[0, 3, 1], [1, 2, 2], [2, 3, 1], [3, 1, 1], [10, 2, 3]]

theorem innerD_rows : WellShaped 2 innerD := by
  refine ⟨by decide +kernel, ?_⟩
  simp only [innerD, List.pairwise_cons, List.mem_cons, List.not_mem_nil, or_false]
  simp
  norm_num

theorem innerU_ready : RunReady 2 (mon .LINEAR innerU innerD) innerU 0 0 := by
  have hx : IsUntilFormula 2 [] (above sx 0) := ⟨⟨1, rfl, by decide, by decide⟩, trivial⟩
  have hy : IsUntilFormula 2 [] (above sy 0) := ⟨⟨2, rfl, by decide, by decide⟩, trivial⟩
  exact ⟨rfl, rfl, rfl, innerD_rows, ⟨hx, le_rfl, show (0 : ℚ) < 1 by norm_num,
      ⟨show (0 : ℚ) ≤ 1 by norm_num, show (1 : ℚ) < 2 by norm_num, hx, hy⟩, hy⟩,
    ⟨Or.inl trivial, ⟨Or.inl trivial, Or.inl trivial⟩, Or.inl trivial⟩, le_rfl, le_rfl,
    ⟨_, 0, rfl, rfl, le_rfl⟩, ⟨_, 10, rfl, rfl, by decide +kernel⟩⟩

/-- Nor does the evaluation return for nested `until`, where all comparisons are of plain signals with values far
inside `±B`: `compute_upper_rob` cuts the signal of the inner `until` (finding 30) so that the operands of the
outer one have only one point in common, and the evaluation is undefined behaviour. -/
theorem C81_nested_false : ¬ ∀ (g : Globals) (m : Monitor) (n : ℕ) (T : Tr) (s e : ℚ), RunReady n m T s e →
    ∃ v, (m.evalRob g s e).2.2 = .ok v := by
  intro h
  obtain ⟨v, hv⟩ := h .init _ 2 innerU 0 0 innerU_ready
  rw [show ((mon .LINEAR innerU innerD).evalRob .init 0 0).2.2 = .error .ub by decide +kernel] at hv
  cases hv

example : ∃ T' v, Tr.computeRob ⟨Globals.init.B, .SPACE, .LINEAR, innerD, []⟩
    (Monitor.prepare [] 0 0 innerU) = .ok (T', v) :=
  C81_first_partial .init (mon .LINEAR innerU innerD) 2 innerU 0 0 innerU_ready

/-! ### An operand at the bound -/

/-- `y > 0 and (x > 0 until_[0,1] y > 0)`. -/
def floorU : Tr := .and .init (above sy 0) (xUy 0 1)

def floorD : List (List ℚ) := [[0, -10000, 1], [1, -10000, 2], [10, -10000, 3]]

theorem floorU_ready (ip : Interpol) : RunReady 2 (mon ip floorU floorD) floorU 0 0 := by
  have hx : IsUntilFormula 2 [] (above sx 0) := ⟨⟨1, rfl, by decide, by decide⟩, trivial⟩
  have hy : IsUntilFormula 2 [] (above sy 0) := ⟨⟨2, rfl, by decide, by decide⟩, trivial⟩
  refine ⟨rfl, rfl, rfl, ⟨show ∀ row ∈ floorD, row.length = 2 + 1 by decide +kernel, ?_⟩, ⟨hy, le_rfl, show (0 : ℚ) < 1 by norm_num, hx, hy⟩,
    ⟨Or.inl trivial, Or.inl trivial, Or.inl trivial⟩, le_rfl, le_rfl,
    ⟨_, 0, rfl, rfl, le_rfl⟩, ⟨_, 10, rfl, rfl, show (0 : ℚ) + reach [] floorU ≤ 10 by decide +kernel⟩⟩
  simp only [mon, floorD, List.pairwise_cons, List.mem_cons, List.not_mem_nil, or_false]
  simp

/-- Nor does it return when an `until` is an operand of `and` and begins at `-B`: its lower bound is then left
empty, with both interpolations. -/
theorem C81_bound_false (ip : Interpol) (hip : ip = .LINEAR ∨ ip = .PREVIOUS) :
    ¬ ∀ (g : Globals) (m : Monitor) (n : ℕ) (T : Tr) (s e : ℚ), m.ip = ip → RunReady n m T s e →
      UntilPlain n m.params T → ∃ v, (m.evalRob g s e).2.2 = .ok v := by
  intro h
  obtain ⟨v, hv⟩ := h .init _ 2 floorU 0 0 rfl (floorU_ready ip)
    ⟨trivial, ⟨⟨1, rfl, by decide, by decide⟩, trivial⟩, ⟨2, rfl, by decide, by decide⟩, trivial⟩
  rw [show ((mon ip floorU floorD).evalRob .init 0 0).2.2 = .error .ub by rcases hip with rfl | rfl <;> decide +kernel] at hv
  cases hv

end Props
end STLRom
