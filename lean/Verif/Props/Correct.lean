import Verif.Proofs.PrevRows
import Verif.Proofs.StepFp
import Verif.Props.Mono
import Verif.Props.SelectFp

/-!
# Property C78: correct rounding; C38, C39 and C76 for piecewise constant signals
-/

namespace STLRom
namespace Props
open Signal Spec Fp

/-! ## C38 and C39 with PREVIOUS interpolation -/

/-- C38 with PREVIOUS interpolation, for formulas that meet `StepOk`, on intervals too: a number is
returned, and its sign decides satisfaction.  Missing: the formulas excluded by `StepOk`. -/
theorem C38_previous_partial (g : Globals) (m : Monitor) (n : ℕ) (T : Tr) (s e : ℚ)
    (h : Ready .PREVIOUS n g.B m T s e) (hk : StepOk m.data m.params s e T) :
    ∃ g' m' v, m.evalRob g s e = (g', m', .ok v) ∧
      (0 < v → Sat .PREVIOUS m.data m.params T s) ∧ (v < 0 → ¬ Sat .PREVIOUS m.data m.params T s) := by
  obtain ⟨g', m', v, h1, h2⟩ := C22_partial g m n T s e h hk
  have h3 := rob_sat (ip := .PREVIOUS) (D := m.data) (P := m.params) (T := T) s
  rw [h2, er_pos, er_neg'] at h3
  exact ⟨g', m', v, h1, h3⟩

example : Sat .PREVIOUS (jumpD (1 / 2)) [] jumpF 0 := by
  obtain ⟨g', m', v, h1, h2, _⟩ := C38_previous_partial .init _ 2 jumpF 0 0
    (jumpD_ready (1 / 2) (by norm_num) (by norm_num)) jumpD_step
  refine h2 ?_
  have e : ((mon .PREVIOUS jumpF (jumpD (1 / 2))).evalRob .init 0 0).2.2 = .ok 3 := by decide +kernel
  rw [h1] at e
  obtain rfl : v = 3 := by simpa using e
  norm_num

/-- C39 with PREVIOUS interpolation, for formulas that meet `StepOk` on both traces, with arbitrary
expressions: if no margin differs by more than `d` in any row, then both evaluations return a number
and these differ by at most `d`.  Missing: the formulas excluded by `StepOk`. -/
theorem C39_previous_partial (g1 g2 : Globals) (m1 m2 : Monitor) (n : ℕ) (T : Tr) (s e d : ℚ)
    (h1 : Ready .PREVIOUS n g1.B m1 T s e) (a1 : StepOk m1.data m1.params s e T)
    (h2 : Ready .PREVIOUS n g2.B m2 T s e) (a2 : StepOk m2.data m2.params s e T)
    (hp : m1.params = m2.params) (ht : m1.data.map (·.head?) = m2.data.map (·.head?))
    (hd : SampledNear d m1.data m2.data m1.params T) :
    ∃ g1' m1' v1 g2' m2' v2, m1.evalRob g1 s e = (g1', m1', .ok v1) ∧ m2.evalRob g2 s e = (g2', m2', .ok v2) ∧
      |v1 - v2| ≤ d ∧ (d < |v1| → (Sat .PREVIOUS m1.data m1.params T s ↔ Sat .PREVIOUS m2.data m2.params T s)) := by
  obtain ⟨g1', m1', v1, e1, r1⟩ := C22_partial g1 m1 n T s e h1 a1
  obtain ⟨g2', m2', v2, e2, r2⟩ := C22_partial g2 m2 n T s e h2 a2
  obtain ⟨hne, h0⟩ := firstRow h1.covers.1
  have hn := rob_near s e (atomsNear_previous (rowTimes ht) hne s e h0 h1.shape hd) ⟨n, h1.shape⟩ s le_rfl h1.stop
  have s1 := rob_sat (ip := .PREVIOUS) (D := m1.data) (P := m1.params) (T := T) s
  have s2 := rob_sat (ip := .PREVIOUS) (D := m2.data) (P := m2.params) (T := T) s
  rw [r1, er_pos, er_neg'] at s1
  rw [r2, er_pos, er_neg'] at s2
  rw [r1, hp, r2] at hn
  simp only [Near, ← er_add, er_le] at hn
  have hle : |v1 - v2| ≤ d := abs_le.2 ⟨by linarith [hn.2], by linarith [hn.1]⟩
  refine ⟨g1', m1', v1, g2', m2', v2, e1, e2, hle, fun hlt => ?_⟩
  have hle' := abs_le.1 hle
  rcases abs_cases v1 with ⟨c1, c2⟩ | ⟨c1, c2⟩
  · exact iff_of_true (s1.1 (by linarith)) (s2.1 (by linarith))
  · exact iff_of_false (s1.2 (by linarith)) (s2.2 (by linarith))

example : ∃ g1' m1' v1 g2' m2' v2, (mon .PREVIOUS upEvF exD).evalRob .init 0 0 = (g1', m1', .ok v1) ∧
    (mon .PREVIOUS upEvF exD2).evalRob .init 0 0 = (g2', m2', .ok v2) ∧ |v1 - v2| ≤ 1 / 2 ∧
      (1 / 2 < |v1| → (Sat .PREVIOUS exD [] upEvF 0 ↔ Sat .PREVIOUS exD2 [] upEvF 0)) :=
  C39_previous_partial .init .init (mon .PREVIOUS upEvF exD) (mon .PREVIOUS upEvF exD2) 2 upEvF 0 0 (1 / 2)
    (upEv_ready _ (Or.inl rfl)) (Or.inl ⟨trivial, trivial⟩) (upEv_ready _ (Or.inr rfl))
    (Or.inl ⟨trivial, trivial⟩) rfl (by decide +kernel)
    (show ∀ row ∈ exD.zip exD2, |margin .less (rowExpr [] row.1 sx) (rowExpr [] row.1 (num 0)) -
        margin .less (rowExpr [] row.2 sx) (rowExpr [] row.2 (num 0))| ≤ 1 / 2 by decide +kernel)

/-! ## C76: the robustness of STL in doubles -/

/-- What evaluation in doubles returns, if the margins too are doubles, is the robustness of STL,
without any error. -/
theorem C76_semantics_partial (g : Globals) (m : Monitor) (n j : ℕ) (T : Tr) (s e h : ℚ)
    (hr : Ready .PREVIOUS n g.B m T s e) (hs : StepOk m.data m.params s e T) (hB : dbl g.B = g.B) (hj : j ≤ 45)
    (hk : MarginsKept dbl m.data m.params T) (hb : BoundsIn (OnGrid j) m.params T)
    (hst : OnGrid j s ∧ |s| ≤ h) (het : OnGrid j e ∧ |e| ≤ h)
    (hU : ∀ row ∈ m.data, OnGrid j (rowTime row) ∧ |rowTime row| ≤ h)
    (hR : 2 * (h + allReach m.params T) ≤ 2 ^ 50 / 2 ^ j) :
    ∃ g' m' v, Fp.evalRob dbl g m s e = (g', m', .ok v) ∧ rob .PREVIOUS m.data m.params T s = er v := by
  rw [C76_partial g m n j T s e h hr.formula hr.interpol hr.sem hr.names hr.rows (declared_of_formula T hr.shape)
    hB hj hk hb hst het hU hR]
  exact C22_partial g m n T s e hr hs

-- Row times, bounds and values are integers.
example : ∃ g' m' v, Fp.evalRob dbl .init (mon .PREVIOUS stepNestF stepNestD) 0 0 = (g', m', .ok v) ∧
    rob .PREVIOUS stepNestD [] stepNestF 0 = er v :=
  C76_semantics_partial .init (mon .PREVIOUS stepNestF stepNestD) 2 0 stepNestF 0 0 6 stepNest_ready
    (stepOk_plain _ _ stepNestF false _ _ ⟨⟨trivial, trivial⟩, trivial, trivial⟩ ⟨rfl, trivial, trivial⟩ fun _ => rfl)
    (by decide +kernel) (by decide)
    (by simp only [MarginsKept, ExprKept, stepNestF, alwT, evT, above, sx, sy, num, mon]; decide +kernel)
    ⟨⟨⟨0, by decide +kernel⟩, ⟨1, by decide +kernel⟩, ⟨0, by decide +kernel⟩, ⟨1, by decide +kernel⟩, trivial⟩, trivial⟩
    ⟨⟨0, by norm_num⟩, by norm_num⟩ ⟨⟨0, by norm_num⟩, by norm_num⟩ (by
      intro row hr
      simp only [mon, stepNestD, List.mem_cons, List.not_mem_nil, or_false] at hr
      rcases hr with rfl | rfl | rfl | rfl | rfl
      · exact ⟨⟨0, by decide +kernel⟩, by decide +kernel⟩
      · exact ⟨⟨1, by decide +kernel⟩, by decide +kernel⟩
      · exact ⟨⟨3, by decide +kernel⟩, by decide +kernel⟩
      · exact ⟨⟨4, by decide +kernel⟩, by decide +kernel⟩
      · exact ⟨⟨6, by decide +kernel⟩, by decide +kernel⟩) (by decide +kernel)

/-! ## C78 -/

/-- The full claim, for both interpolations: on a trace of doubles the result in doubles is the exact
robustness, rounded to the nearest double. -/
def C78_full : Prop := ∀ (ip : Interpol) (g g' : Globals) (m m' : Monitor) (n : ℕ) (T : Tr) (s v : ℚ),
  Ready ip n g.B m T s s → PlainAtoms T → dbl g.B = g.B → dbl s = s → (∀ row ∈ m.data, ∀ x ∈ row, dbl x = x) →
    OperandsKept dbl m.data m.params T → BoundsIn (fun x => dbl x = x) m.params T →
      Fp.evalRob1 dbl g m s = (g', m', .ok v) → ∃ x, rob ip m.data m.params T s = er x ∧ v = dbl x

/-- C78 with PREVIOUS interpolation, for formulas that meet `StepOk`, on intervals too: if the times of
the rows, the bounds of the intervals and the horizon are multiples of `1 / 2 ^ j`, and the compared
values are doubles, then the number that evaluation in doubles returns is the robustness of STL,
rounded once.  Its error is at most half a unit in the last place, and its sign is right.
Missing from the full claim: `LINEAR` interpolation, times off the grid (`C78_false`), and the formulas
excluded by `StepOk`. -/
theorem C78_partial (g g' : Globals) (m m' : Monitor) (n j : ℕ) (T : Tr) (s e v h : ℚ)
    (hr : Ready .PREVIOUS n g.B m T s e) (hs : StepOk m.data m.params s e T) (hB : dbl g.B = g.B) (hj : j ≤ 45)
    (ho : OperandsKept dbl m.data m.params T) (hb : BoundsIn (OnGrid j) m.params T)
    (hst : OnGrid j s ∧ |s| ≤ h) (het : OnGrid j e ∧ |e| ≤ h)
    (hU : ∀ row ∈ m.data, OnGrid j (rowTime row) ∧ |rowTime row| ≤ h)
    (hR : 2 * (h + allReach m.params T) ≤ 2 ^ 50 / 2 ^ j)
    (hv : Fp.evalRob dbl g m s e = (g', m', .ok v)) :
    ∃ x, rob .PREVIOUS m.data m.params T s = er x ∧ v = dbl x ∧ |v - x| ≤ |x| / 2 ^ 53 + 1 / 2 ^ 1075 ∧
      (0 < v → Sat .PREVIOUS m.data m.params T s) ∧ (v < 0 → ¬ Sat .PREVIOUS m.data m.params T s) := by
  obtain ⟨x, h1, rfl⟩ := evalRob_step_fp (dbl_calc hj hB) (dbl_nice hB) hr hs ho hb hU hst het hR hv
  have h3 := rob_sat (ip := .PREVIOUS) (D := m.data) (P := m.params) (T := T) s
  rw [h1, er_pos, er_neg'] at h3
  have h0 : dbl 0 = 0 := rfl
  refine ⟨x, h1, rfl, dbl_error x, fun hp => h3.1 ?_, fun hp => h3.2 ?_⟩
  · by_contra hc
    have := dbl_mono (not_lt.1 hc)
    rw [h0] at this
    exact absurd hp (not_lt.2 this)
  · by_contra hc
    have := dbl_mono (not_lt.1 hc)
    rw [h0] at this
    exact absurd hp (not_lt.2 this)

/-- `alw_[0,1] ev_[0,0.5] x > 0.1`. -/
def roundF : Tr := alwT 0 1 (evT 0 (1 / 2) (above sx (dbl (1 / 10))))

/-- Decimal fractions at times with one binary digit. -/
def roundD : List (List ℚ) := [[0, dbl (2 / 10)], [1 / 2, dbl (8 / 10)], [1, dbl (7 / 10)], [3, dbl (9 / 10)]]

theorem roundF_ready : Ready .PREVIOUS 1 Globals.init.B (mon .PREVIOUS roundF roundD) roundF 0 0 := by
  have hF : IsFormula 1 [] roundF := ⟨by decide +kernel, by decide +kernel, by decide +kernel, by decide +kernel,
    ⟨1, rfl, by decide, by decide⟩, trivial⟩
  refine ⟨rfl, rfl, rfl, rfl, ⟨by decide +kernel, ?_⟩, hF, ?_, le_rfl, le_rfl, ?_⟩
  · simp only [mon, roundD, List.pairwise_cons, List.mem_cons, List.not_mem_nil, or_false]
    simp
    norm_num
  · refine atomsWithin_previous (by decide) 0 0 ?_ hF ?_
    · intro row h
      simp only [mon, roundD, List.head?_cons, Option.some.injEq] at h
      subst h
      decide +kernel
    · intro x hx
      simp only [MarginOf, roundF, evT, alwT, above, roundD, mon, List.mem_cons, List.not_mem_nil,
        or_false, exists_eq_or_imp, exists_eq_left] at hx
      rcases hx with rfl | rfl | rfl | rfl <;> decide +kernel
  · exact ⟨⟨_, 0, rfl, rfl, le_rfl⟩, ⟨_, 3, rfl, rfl, by decide +kernel⟩⟩

theorem roundF_result : (Fp.evalRob dbl .init (mon .PREVIOUS roundF roundD) 0 0).2.2 =
    .ok (dbl (dbl (7 / 10) - dbl (1 / 10))) := by decide +kernel

-- The margin in the row of 0.7 is no double, and the result is the exact robustness, rounded once.
example : dbl (dbl (7 / 10) - dbl (1 / 10)) ≠ dbl (7 / 10) - dbl (1 / 10) ∧
    ∃ x, rob .PREVIOUS roundD [] roundF 0 = er x ∧ dbl (dbl (7 / 10) - dbl (1 / 10)) = dbl x ∧
      Sat .PREVIOUS roundD [] roundF 0 := by
  refine ⟨by decide +kernel, ?_⟩
  obtain ⟨x, h1, h2, _, h3, _⟩ := C78_partial .init (Fp.evalRob dbl .init (mon .PREVIOUS roundF roundD) 0 0).1 _
    (Fp.evalRob dbl .init (mon .PREVIOUS roundF roundD) 0 0).2.1 1 1 roundF 0 0
    (dbl (dbl (7 / 10) - dbl (1 / 10))) 3 roundF_ready (Or.inl ⟨trivial, trivial⟩) (by decide +kernel) (by decide)
    (by simp only [OperandsKept, ExprKept, roundF, alwT, evT, above, sx, num, mon]; decide +kernel)
    ⟨⟨0, by decide +kernel⟩, ⟨2, by decide +kernel⟩, ⟨0, by decide +kernel⟩, ⟨1, by decide +kernel⟩, trivial⟩
    ⟨⟨0, by norm_num⟩, by norm_num⟩ ⟨⟨0, by norm_num⟩, by norm_num⟩ (by
      intro row hr
      simp only [mon, roundD, List.mem_cons, List.not_mem_nil, or_false] at hr
      rcases hr with rfl | rfl | rfl | rfl
      · exact ⟨⟨0, by decide +kernel⟩, by decide +kernel⟩
      · exact ⟨⟨1, by decide +kernel⟩, by decide +kernel⟩
      · exact ⟨⟨2, by decide +kernel⟩, by decide +kernel⟩
      · exact ⟨⟨6, by decide +kernel⟩, by decide +kernel⟩) (by decide +kernel)
    (Prod.ext rfl (Prod.ext rfl roundF_result))
  exact ⟨x, h1, h2, h3 (by decide +kernel)⟩

theorem ftF_ready : Ready .PREVIOUS 1 Globals.init.B (mon .PREVIOUS ftF ftD) ftF (dbl (1 / 10)) (dbl (1 / 10)) := by
  have hF : IsFormula 1 [] ftF := ⟨by decide +kernel, by decide +kernel, ⟨1, rfl, by decide, by decide⟩, trivial⟩
  refine ⟨rfl, rfl, rfl, rfl, ftD_rows, hF, ?_, by decide +kernel, le_rfl, ?_⟩
  · refine atomsWithin_previous (by decide) _ _ ?_ hF ?_
    · intro row h
      simp only [mon, ftD, List.head?_cons, Option.some.injEq] at h
      subst h
      decide +kernel
    · intro x hx
      simp only [MarginOf, ftF, evT, above, ftD, mon, List.mem_cons, List.not_mem_nil,
        or_false, exists_eq_or_imp, exists_eq_left] at hx
      rcases hx with rfl | rfl | rfl <;> decide +kernel
  · exact ⟨⟨_, 0, rfl, rfl, by decide +kernel⟩, ⟨_, 1, rfl, rfl, by decide +kernel⟩⟩

/-- C78 is false with times off the grid: the 5 of `C76_time_false`, where the robustness is -1. -/
theorem C78_false : ¬ C78_full := by
  intro h
  obtain ⟨h1, h2⟩ := C76_time_false
  obtain ⟨x, x1, x2⟩ := h .PREVIOUS .init (Fp.evalRob1 dbl .init (mon .PREVIOUS ftF ftD) (dbl (1 / 10))).1 _
    (Fp.evalRob1 dbl .init (mon .PREVIOUS ftF ftD) (dbl (1 / 10))).2.1 1 ftF (dbl (1 / 10)) 5 ftF_ready
    ⟨trivial, trivial⟩ (by decide +kernel) (dbl_dbl _) (by decide +kernel)
    (by simp only [OperandsKept, ExprKept, ftF, evT, above, sx, num, mon]; decide +kernel)
    ⟨by decide +kernel, by decide +kernel, trivial⟩ (Prod.ext rfl (Prod.ext rfl h2))
  have h3 := evalRob_step ftF_ready (Or.inl ⟨trivial, trivial⟩) (Prod.ext rfl (Prod.ext rfl h1))
  rw [h3] at x1
  rw [← er_inj x1] at x2
  revert x2
  decide +kernel

end Props
end STLRom
