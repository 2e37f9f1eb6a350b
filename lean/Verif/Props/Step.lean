import Verif.Proofs.StepRob
import Verif.Proofs.Mono
import Verif.Props.Online

/-!
# Property C22: what `eval_rob` computes on covering traces with PREVIOUS interpolation

In SPACE mode, for formulas without `until` (`Spec.Ready`).
-/

namespace STLRom
namespace Props
open Signal Spec

/-- The full claim for the until-free fragment over atoms that compare signals and constants. -/
def C22_full : Prop := ∀ (g : Globals) (m : Monitor) (n : ℕ) (T : Tr) (t0 : ℚ),
  Ready .PREVIOUS n g.B m T t0 t0 → PlainAtoms T →
    ∃ g' m' v, m.evalRob1 g t0 = (g', m', .ok v) ∧ rob .PREVIOUS m.data m.params T t0 = er v

/-- C22 for formulas that meet `StepOk`, also for evaluations on an interval, whose result is the
robustness at its start.  Missing from the full claim: operands of Boolean operators that jump at
the end of their evaluation interval, where the claim fails (`C22_false`). -/
theorem C22_partial (g : Globals) (m : Monitor) (n : ℕ) (T : Tr) (s e : ℚ)
    (h : Ready .PREVIOUS n g.B m T s e) (hs : StepOk m.data m.params s e T) :
    ∃ g' m' v, m.evalRob g s e = (g', m', .ok v) ∧ rob .PREVIOUS m.data m.params T s = er v := by
  obtain ⟨v, hv⟩ := (C17_partial g m n T s e h.formula h.shape h.rows (h.start.trans h.stop)).2.1
    (by obtain ⟨row, t, k, _⟩ := h.covers.1; rintro e; rw [e] at k; simp at k) h.sem
  exact ⟨(m.evalRob g s e).1, (m.evalRob g s e).2.1, v, Prod.ext rfl (Prod.ext rfl hv),
    evalRob_step h hs (Prod.ext rfl (Prod.ext rfl hv))⟩

/-- C22 for all nestings of temporal operators and negations over comparisons of signals and
constants, and Boolean combinations of such formulas, at a single time.  Missing from the full
claim: `and`, `or`, `=>` inside temporal operators (`C22_partial`, `C22_false`). -/
theorem C22_outside_partial (g : Globals) (m : Monitor) (n : ℕ) (T : Tr) (t0 : ℚ)
    (h : Ready .PREVIOUS n g.B m T t0 t0) (ha : PlainAtoms T) (hj : JoinsOutside false T) :
    ∃ g' m' v, m.evalRob1 g t0 = (g', m', .ok v) ∧ rob .PREVIOUS m.data m.params T t0 = er v :=
  C22_partial g m n T t0 t0 h (stepOk_plain _ _ T false _ _ ha hj fun _ => rfl)

/-- `ev_[0,1] (x > 0 and y > 0)`. -/
def jumpF : Tr := evT 0 1 (.and .init (above sx 0) (above sy 0))

/-- `x` and `y` jump at time `c`. -/
def jumpD (c : ℚ) : List (List ℚ) := [[0, -1, -1], [c, 5, 3], [2, 5, 3]]

theorem jumpD_x (c t : ℚ) (h0 : 0 ≤ t) (h1 : t ≤ 1) :
    trace .PREVIOUS (jumpD c) 1 t = if t < c then -1 else 5 := by
  rw [show trace .PREVIOUS (jumpD c) 1 t = (interp .PREVIOUS [(0, -1), (c, 5), (2, 5)] t).getD 0
    from rfl]
  simp only [interp, if_neg (not_lt.2 h0)]
  split_ifs <;> first | rfl | (exfalso; linarith)

theorem jumpD_y (c t : ℚ) (h0 : 0 ≤ t) (h1 : t ≤ 1) :
    trace .PREVIOUS (jumpD c) 2 t = if t < c then -1 else 3 := by
  rw [show trace .PREVIOUS (jumpD c) 2 t = (interp .PREVIOUS [(0, -1), (c, 3), (2, 3)] t).getD 0
    from rfl]
  simp only [interp, if_neg (not_lt.2 h0)]
  split_ifs <;> first | rfl | (exfalso; linarith)

theorem jumpD_ready (c : ℚ) (h0 : 0 < c) (h1 : c ≤ 1) :
    Ready .PREVIOUS 2 Globals.init.B (mon .PREVIOUS jumpF (jumpD c)) jumpF 0 0 := by
  refine ⟨rfl, rfl, rfl, rfl, ⟨by simp [mon, jumpD], ?_⟩, ?_, ⟨?_, ?_⟩, le_rfl, le_rfl, ?_⟩
  · simp only [mon, jumpD, List.pairwise_cons, List.mem_cons, List.not_mem_nil, or_false]
    simp
    exact ⟨h0, by linarith⟩
  · exact ⟨show (0 : ℚ) ≤ 0 by decide +kernel, show (0 : ℚ) ≤ 1 by decide +kernel, ⟨⟨1, rfl, by decide, by decide⟩, trivial⟩,
      ⟨2, rfl, by decide, by decide⟩, trivial⟩
  · intro t a b
    have a : 0 ≤ t := le_trans (show (0 : ℚ) ≤ 0 + 0 by decide +kernel) a
    have b : t ≤ 1 := le_trans b (show (0 : ℚ) + 1 ≤ 1 by decide +kernel)
    show -Globals.init.B ≤ trace .PREVIOUS (jumpD c) 1 t - 0 ∧ trace .PREVIOUS (jumpD c) 1 t - 0 ≤ _
    rw [jumpD_x c t a b]
    split_ifs <;> decide +kernel
  · intro t a b
    have a : 0 ≤ t := le_trans (show (0 : ℚ) ≤ 0 + 0 by decide +kernel) a
    have b : t ≤ 1 := le_trans b (show (0 : ℚ) + 1 ≤ 1 by decide +kernel)
    show -Globals.init.B ≤ trace .PREVIOUS (jumpD c) 2 t - 0 ∧ trace .PREVIOUS (jumpD c) 2 t - 0 ≤ _
    rw [jumpD_y c t a b]
    split_ifs <;> decide +kernel
  · exact ⟨⟨_, 0, rfl, rfl, le_rfl⟩, ⟨_, 2, rfl, rfl, show (0 : ℚ) + (1 + max 0 0) ≤ 2 by decide +kernel⟩⟩

theorem jumpD_step : StepOk (jumpD (1 / 2)) [] 0 0 jumpF := by
  refine ⟨Or.inl ⟨trivial, trivial⟩, Or.inl ⟨trivial, trivial⟩, fun _ => ?_, fun _ => ?_⟩
  · refine ⟨1 / 2, by decide +kernel, by decide +kernel, fun t a b => ?_⟩
    show er (trace .PREVIOUS (jumpD (1 / 2)) 1 t - 0) = er (trace .PREVIOUS (jumpD (1 / 2)) 1 (0 + 1) - 0)
    have b : t ≤ 1 := le_trans b (by decide +kernel)
    rw [jumpD_x _ t (by linarith) b, if_neg (not_lt.2 a), jumpD_x _ _ (by norm_num) (by norm_num),
      if_neg (by norm_num)]
  · refine ⟨1 / 2, by decide +kernel, by decide +kernel, fun t a b => ?_⟩
    show er (trace .PREVIOUS (jumpD (1 / 2)) 2 t - 0) = er (trace .PREVIOUS (jumpD (1 / 2)) 2 (0 + 1) - 0)
    have b : t ≤ 1 := le_trans b (by decide +kernel)
    rw [jumpD_y _ t (by linarith) b, if_neg (not_lt.2 a), jumpD_y _ _ (by norm_num) (by norm_num),
      if_neg (by norm_num)]

example : ∃ g' m' v, (mon .PREVIOUS jumpF (jumpD (1 / 2))).evalRob .init 0 0 = (g', m', .ok v) ∧
    rob .PREVIOUS (jumpD (1 / 2)) [] jumpF 0 = er v :=
  C22_partial .init _ 2 jumpF 0 0 (jumpD_ready (1 / 2) (by norm_num) (by norm_num)) jumpD_step

/-- `x > 0 or y > 0` on `[0, 1]`. -/
def jumpG : Tr := .or .init (above sx 0) (above sy 0)

theorem jumpG_ready (c : ℚ) (h0 : 0 < c) (h1 : c ≤ 1) :
    Ready .PREVIOUS 2 Globals.init.B (mon .PREVIOUS jumpG (jumpD c)) jumpG 0 1 := by
  have h := jumpD_ready c h0 h1
  refine ⟨rfl, rfl, rfl, rfl, h.rows, h.shape.2.2, ?_, le_rfl, by decide +kernel, ?_⟩
  · have := h.within
    simpa [mon, jumpF, jumpG, evT, AtomsWithin, lit, bound] using this
  · exact ⟨⟨_, 0, rfl, rfl, le_rfl⟩, ⟨_, 2, rfl, rfl, show (1 : ℚ) + max 0 0 ≤ 2 by decide +kernel⟩⟩

example : ∃ g' m' v, (mon .PREVIOUS jumpG (jumpD (1 / 2))).evalRob .init 0 1 = (g', m', .ok v) ∧
    rob .PREVIOUS (jumpD (1 / 2)) [] jumpG 0 = er v :=
  C22_partial .init _ 2 jumpG 0 1 (jumpG_ready (1 / 2) (by norm_num) (by norm_num))
    (by simpa [mon, jumpF, jumpG, evT, StepOk, lit, bound] using jumpD_step)

/-- `alw_[0,1] ev_[0,1] not (x > 0) or y > 0`. -/
def stepNestF : Tr := .or .init (alwT 0 1 (evT 0 1 (.not .init (above sx 0)))) (above sy 0)

/-- `x` is positive on `[1, 3)` and on `[4, 6]`, `y` on `[4, 6]`. -/
def stepNestD : List (List ℚ) := [[0, -2, -4], [1, 3, -4], [3, -1, -4], [4, 2, 2], [6, 2, 2]]

theorem stepNest_ready :
    Ready .PREVIOUS 2 Globals.init.B (mon .PREVIOUS stepNestF stepNestD) stepNestF 0 0 := by
  have hw : ∀ T, (T = sx ∨ T = sy) → ∀ t, 0 ≤ t →
      -Globals.init.B ≤ margin .greater (expr .PREVIOUS stepNestD [] T t)
        (expr .PREVIOUS stepNestD [] (num 0) t) ∧
      margin .greater (expr .PREVIOUS stepNestD [] T t)
        (expr .PREVIOUS stepNestD [] (num 0) t) ≤ Globals.init.B := by
    intro T hT t h
    obtain ⟨r, i, j⟩ := mixAt_prev t stepNestD (by decide) (by
      intro row hrow
      simp only [stepNestD, List.head?_cons, Option.some.injEq] at hrow
      subst hrow
      exact le_trans (by decide +kernel) h)
    have hm := List.mem_of_getElem? i
    rcases hT with rfl | rfl
    · rw [expr_prevRow (n := 2) (T := sx) j ⟨1, rfl, by decide, by decide⟩,
        expr_prevRow (n := 2) (T := num 0) j trivial]
      have : ∀ r ∈ stepNestD, -Globals.init.B ≤ margin .greater (rowExpr [] r sx) (rowExpr [] r (num 0)) ∧
          margin .greater (rowExpr [] r sx) (rowExpr [] r (num 0)) ≤ Globals.init.B := by decide +kernel
      exact this r hm
    · rw [expr_prevRow (n := 2) (T := sy) j ⟨2, rfl, by decide, by decide⟩,
        expr_prevRow (n := 2) (T := num 0) j trivial]
      have : ∀ r ∈ stepNestD, -Globals.init.B ≤ margin .greater (rowExpr [] r sy) (rowExpr [] r (num 0)) ∧
          margin .greater (rowExpr [] r sy) (rowExpr [] r (num 0)) ≤ Globals.init.B := by decide +kernel
      exact this r hm
  refine ⟨rfl, rfl, rfl, rfl, ⟨by decide +kernel, ?_⟩, ?_, ⟨?_, ?_⟩, le_rfl, le_rfl, ?_⟩
  · simp only [mon, stepNestD, List.pairwise_cons, List.mem_cons, List.not_mem_nil, or_false]
    simp
    norm_num
  · exact ⟨⟨show (0 : ℚ) ≤ 0 by decide +kernel, show (0 : ℚ) ≤ 1 by decide +kernel,
      show (0 : ℚ) ≤ 0 by decide +kernel, show (0 : ℚ) ≤ 1 by decide +kernel,
      ⟨1, rfl, by decide, by decide⟩, trivial⟩, ⟨2, rfl, by decide, by decide⟩, trivial⟩
  · intro t a _
    exact hw sx (Or.inl rfl) t (le_trans (show (0 : ℚ) ≤ 0 + 0 + 0 by decide +kernel) a)
  · intro t a _
    exact hw sy (Or.inr rfl) t a
  · exact ⟨⟨_, 0, rfl, rfl, le_rfl⟩, ⟨_, 6, rfl, rfl, by decide +kernel⟩⟩

example : (∃ g' m' v, (mon .PREVIOUS stepNestF stepNestD).evalRob1 .init 0 = (g', m', .ok v) ∧
      rob .PREVIOUS stepNestD [] stepNestF 0 = er v) ∧
    ((mon .PREVIOUS stepNestF stepNestD).evalRob1 .init 0).2.2 = .ok (-3) :=
  ⟨C22_outside_partial .init _ 2 stepNestF 0 stepNest_ready ⟨⟨trivial, trivial⟩, trivial, trivial⟩
    ⟨rfl, trivial, trivial⟩, by decide +kernel⟩

/-- C22 is false: `ev_[0,1] (x > 0 and y > 0)` where `x` and `y` jump from -1 to 5 and 3 at time
1 has robustness 3 at time 0, `eval_rob` returns -1. -/
theorem C22_false : ¬ C22_full := by
  intro h
  obtain ⟨g', m', v, h1, h2⟩ := h .init _ 2 jumpF 0 (jumpD_ready 1 (by norm_num) le_rfl)
    ⟨⟨trivial, trivial⟩, trivial, trivial⟩
  have h3 : ((mon .PREVIOUS jumpF (jumpD 1)).evalRob1 .init 0).2.2 = .ok (-1) := by decide +kernel
  rw [h1] at h3
  obtain rfl : v = -1 := by simpa using h3
  have h4 : er 3 ≤ rob .PREVIOUS (jumpD 1) [] jumpF 0 := by
    refine le_iSup₂_of_le 1 ?_ ?_
    · rw [show bound [] (lit 0 1).beginStr (lit 0 1).begin = 0 from rfl,
        show bound [] (lit 0 1).stopStr (lit 0 1).stop = 1 from rfl, Set.mem_Icc]
      norm_num
    · show er 3 ≤ er (trace .PREVIOUS (jumpD 1) 1 1 - 0) ⊓ er (trace .PREVIOUS (jumpD 1) 2 1 - 0)
      rw [jumpD_x 1 1 (by norm_num) le_rfl, jumpD_y 1 1 (by norm_num) le_rfl,
        if_neg (lt_irrefl _), if_neg (lt_irrefl _)]
      refine le_inf ?_ ?_ <;> rw [er_le] <;> norm_num
  rw [show rob .PREVIOUS (jumpD 1) [] jumpF 0 = er (-1) from h2, er_le] at h4
  norm_num at h4

end Props
end STLRom
