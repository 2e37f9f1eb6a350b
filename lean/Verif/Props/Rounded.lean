import Verif.Props.Select
import Verif.Proofs.Double
import Verif.Proofs.GridRun
import Verif.Proofs.Rounded

/-!
# Property C76: evaluation in doubles

The C++ code computes with `double`: every sum, difference, product and quotient is rounded.  The
other properties are about exact arithmetic.  Here the model is run with the rounding of IEEE
binary64 after every operation, `Fp.evalRob dbl`, and compared with the exact run.
-/

namespace STLRom
namespace Props
open Signal Spec Fp

/-- The full claim: on a trace of doubles, and with margins that are doubles of size at most `M`, the
result in doubles is within a thousandth of `M` of the exact one. -/
def C76_full : Prop := ∀ (g : Globals) (m : Monitor) (n : ℕ) (T : Tr) (s e r M : ℚ),
  m.formula = some T → m.sem = .SPACE → m.params.lookup "" = none → WellShaped n m.data → Declared n T →
    (∀ row ∈ m.data, ∀ v ∈ row, dbl v = v) → (∀ x, MarginOf m.data m.params T x → |x| ≤ M) →
      (m.evalRob g s e).2.2 = .ok r →
        ∃ r', (Fp.evalRob dbl g m s e).2.2 = .ok r' ∧ |r' - r| ≤ M / 1000

/-- C76 with `PREVIOUS` interpolation, for every formula, `until` included, and every trace: if the
times of the rows, the bounds of the intervals and the horizon are multiples of `1 / 2 ^ j`, and the
values of the expressions and the margins of the comparisons are doubles, then evaluation in doubles
makes no rounding error at all: the results, the faults and all computed signals are those of exact
arithmetic.  Missing from the full claim: `LINEAR` interpolation (`C76_false`), margins that need
rounding, and times that do (such as 0.1). -/
theorem C76_partial (g : Globals) (m : Monitor) (n j : ℕ) (T : Tr) (s e h : ℚ)
    (hm : m.formula = some T) (hi : m.ip = .PREVIOUS) (hs : m.sem = .SPACE)
    (h0 : m.params.lookup "" = none) (hD : WellShaped n m.data) (hT : Declared n T)
    (hB : dbl g.B = g.B) (hj : j ≤ 45)
    (hk : MarginsKept dbl m.data m.params T) (hb : BoundsIn (OnGrid j) m.params T)
    (hst : OnGrid j s ∧ |s| ≤ h) (het : OnGrid j e ∧ |e| ≤ h)
    (hU : ∀ row ∈ m.data, OnGrid j (rowTime row) ∧ |rowTime row| ≤ h)
    (hR : 2 * (h + allReach m.params T) ≤ 2 ^ 50 / 2 ^ j) :
    Fp.evalRob dbl g m s e = m.evalRob g s e :=
  evalRob_grid (dbl_calc hj hB) hm hi hs h0 hD hT hk hb hR hst het hU

/-- Without rounding the rounded model is the exact one. -/
theorem C76_exact (g : Globals) (m : Monitor) (s e : ℚ) : Fp.evalRob id g m s e = m.evalRob g s e := by
  simp

/-- `alw_[0,0.5] (x > 1 until_[0.25,1] y > 0.5)`. -/
def fpF : Tr := alwT 0 (1 / 2) (.untl .init (above sx 1) ⟨1 / 4, 1, "", ""⟩ (above sy (1 / 2)))

/-- Four rows. -/
def fpD : List (List ℚ) := [[0, 3, -2], [1 / 4, 6, 7 / 2], [3 / 4, 4, 5], [2, 9 / 8, 9]]

theorem fpD_rows : WellShaped 2 fpD := by
  refine ⟨by decide +kernel, ?_⟩
  simp only [fpD, List.pairwise_cons, List.mem_cons, List.not_mem_nil, or_false]
  simp
  norm_num

/-- Times with two binary digits: doubles give the exact results, here 2. -/
example : Fp.evalRob dbl .init (mon .PREVIOUS fpF fpD) 0 0 = (mon .PREVIOUS fpF fpD).evalRob .init 0 0 ∧
    ((mon .PREVIOUS fpF fpD).evalRob .init 0 0).2.2 = .ok 2 := by
  have h : ((mon .PREVIOUS fpF fpD).evalRob .init 0 0).2.2 = .ok 2 := by decide +kernel
  refine ⟨C76_partial .init (mon .PREVIOUS fpF fpD) 2 2 fpF 0 0 2 rfl rfl rfl rfl fpD_rows
    ⟨⟨⟨1, rfl, by decide, by decide⟩, trivial⟩, ⟨2, rfl, by decide, by decide⟩, trivial⟩
    (by decide +kernel) (by decide) ?_ ?_ ⟨⟨0, by norm_num⟩, by norm_num⟩ ⟨⟨0, by norm_num⟩, by norm_num⟩ ?_
    (by decide +kernel), h⟩
  · simp only [MarginsKept, ExprKept, fpF, alwT, above, sx, sy, num, mon]
    decide +kernel
  · exact ⟨⟨0, by decide +kernel⟩, ⟨2, by decide +kernel⟩, ⟨1, by decide +kernel⟩, ⟨4, by decide +kernel⟩, trivial,
      trivial⟩
  · intro row hr
    simp only [mon, fpD, List.mem_cons, List.not_mem_nil, or_false] at hr
    rcases hr with rfl | rfl | rfl | rfl
    · exact ⟨⟨0, by decide +kernel⟩, by decide +kernel⟩
    · exact ⟨⟨1, by decide +kernel⟩, by decide +kernel⟩
    · exact ⟨⟨3, by decide +kernel⟩, by decide +kernel⟩
    · exact ⟨⟨8, by decide +kernel⟩, by decide +kernel⟩

/-- `ev_[0,20] (x > 0 and y > 0.1)`. -/
def fpG : Tr := evT 0 20 (.and .init (above sx 0) (above sy (dbl (1 / 10))))

/-- The rows `0 -3.3 -3.2`, `10 -5.9 -5.8` and `20 -0.2 -0.1`: `y` is `x + 0.1` up to rounding. -/
def fpX : List (List ℚ) :=
  [[0, -33 / 10, -32 / 10], [10, -59 / 10, -58 / 10], [20, -2 / 10, -1 / 10]].map (·.map dbl)

theorem fpX_rows : WellShaped 2 fpX := by
  refine ⟨by decide +kernel, ?_⟩
  have : fpX = [[0, -3715469692580659 / 1125899906842624, -3602879701896397 / 1125899906842624],
      [10, -3321404725185741 / 562949953421312, -6530219459687219 / 1125899906842624],
      [20, -3602879701896397 / 18014398509481984, -3602879701896397 / 36028797018963968]] := by
    decide +kernel
  rw [this]
  simp only [List.pairwise_cons, List.mem_cons, List.not_mem_nil, or_false]
  simp
  norm_num

/-- With linear interpolation doubles get the sign wrong: `x` is negative in every row, so
`ev_[0,20] (x > 0 and y > 0.1)` is violated by at least 0.2, as exact arithmetic finds.  In doubles
evaluation returns 2.08.  The two margins differ by rounding errors only; the point where their lines
meet is computed far outside of the piece, and its value extrapolated to there.  The result is even
above the upper bound, which is -0.2. -/
theorem C76_sign_false :
    (∀ row ∈ fpX, row.getD 1 0 < -19 / 100) ∧
    ((mon .LINEAR fpG fpX).evalRob1 .init 0).2.2 = .ok (dbl (-2 / 10)) ∧
    (Fp.evalRob1 dbl .init (mon .LINEAR fpG fpX) 0).2.2 = .ok (1170935903116329 / 562949953421312) ∧
    (1170935903116329 / 562949953421312 : ℚ) > 208 / 100 ∧
    (Fp.evalRob1 dbl .init (mon .LINEAR fpG fpX) 0).2.1.upperRob < -19 / 100 := by
  decide +kernel

/-- C76 is false. -/
theorem C76_false : ¬ C76_full := by
  intro h
  obtain ⟨-, h1, h2, -, -⟩ := C76_sign_false
  obtain ⟨r', h3, h4⟩ := h .init (mon .LINEAR fpG fpX) 2 fpG 0 0 _ 6 rfl rfl rfl fpX_rows
    ⟨⟨⟨1, rfl, by decide, by decide⟩, trivial⟩, ⟨2, rfl, by decide, by decide⟩, trivial⟩
    (by decide +kernel) (by
      intro x hx
      simp only [MarginOf, fpG, evT, above, fpX, mon, List.map_cons, List.map_nil, List.mem_cons, List.not_mem_nil,
        or_false, exists_eq_or_imp, exists_eq_left] at hx
      rcases hx with (rfl | rfl | rfl) | (rfl | rfl | rfl) <;> decide +kernel) h1
  have h5 : Except.ok r' = Except.ok (ε := Fault) (1170935903116329 / 562949953421312 : ℚ) := h3.symm.trans h2
  cases h5
  revert h4
  decide +kernel

end Props
end STLRom
