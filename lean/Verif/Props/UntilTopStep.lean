import Verif.Props.UntilStep
import Verif.Props.UntilTop
import Verif.Proofs.UntilTopStep

/-!
# Property C67 with PREVIOUS interpolation
-/

namespace STLRom
namespace Props
open Signal Spec

/-- The full claim with PREVIOUS interpolation: on a covering trace, with all comparisons within `±B`
and no operand of an `until` beginning at `±B`, `eval_rob` returns the robustness of every formula whose
`until`s are outside of temporal operators, and both bounds are equal to it. -/
def C67_previous_full : Prop := ∀ (g : Globals) (m : Monitor) (n : ℕ) (T : Tr) (t : ℚ),
  TopStepReady n g.B m T t → BeginsInside .PREVIOUS g.B m.data m.params t T → Untrimmed m.params t t T →
    ∃ g' m' v, m.evalRob1 g t = (g', m', .ok v) ∧ rob .PREVIOUS m.data m.params T t = er v ∧
      m'.rob = v ∧ m'.lowerRob = v ∧ m'.upperRob = v

/-- C67 with PREVIOUS interpolation where no operand of a Boolean operator jumps exactly at the end of
its evaluation interval, and no right operand of an `until` at the end of its window.  Missing: the
operands that do, where it is false (`C67_previous_false`). -/
theorem C67_previous_partial (g : Globals) (m : Monitor) (n : ℕ) (T : Tr) (t : ℚ)
    (h : TopStepReady n g.B m T t) (hk : TopStepOk m.data m.params t T) (hu : Untrimmed m.params t t T)
    (hi : BeginsInside .PREVIOUS g.B m.data m.params t T) :
    ∃ g' m' v, m.evalRob1 g t = (g', m', .ok v) ∧ rob .PREVIOUS m.data m.params T t = er v ∧
      m'.rob = v ∧ m'.lowerRob = v ∧ m'.upperRob = v :=
  evalRob_top_step h hk hu hi

/-- C67 with PREVIOUS interpolation for a single `until` with until-free operands, without any
condition on `±B`; it says exactly when the bounds meet the value. -/
theorem C67_single_previous_partial (g : Globals) (m : Monitor) (n : ℕ) (st : St) (l r : Tr) (I : Ival) (a t : ℚ)
    (h : TopStepReady n g.B m (.untl st l I r) t) (hk : TopStepOk m.data m.params t (.untl st l I r))
    (hu : Untrimmed m.params t t (.untl st l I r)) (hA : bound m.params I.beginStr I.begin = a) :
    ∃ g' m' v, m.evalRob1 g t = (g', m', .ok v) ∧
      rob .PREVIOUS m.data m.params (.untl st l I r) t = er v ∧
      ((rob .PREVIOUS m.data m.params r (t + a) = er (-g.B) → m'.lowerRob = -g.B) ∧
        (rob .PREVIOUS m.data m.params r (t + a) ≠ er (-g.B) → m'.lowerRob = v)) ∧
      ((rob .PREVIOUS m.data m.params l t = er g.B ∨ rob .PREVIOUS m.data m.params r (t + a) = er g.B →
          m'.upperRob = g.B) ∧
        (¬ (rob .PREVIOUS m.data m.params l t = er g.B ∨ rob .PREVIOUS m.data m.params r (t + a) = er g.B) →
          m'.upperRob = v)) :=
  evalRob_untl_step h hk hu hA

/-- C38 for the formulas of C67 with PREVIOUS interpolation: a number is returned, and its sign decides
satisfaction. -/
theorem C38_until_previous_partial (g : Globals) (m : Monitor) (n : ℕ) (T : Tr) (t : ℚ)
    (h : TopStepReady n g.B m T t) (hk : TopStepOk m.data m.params t T) (hu : Untrimmed m.params t t T)
    (hi : BeginsInside .PREVIOUS g.B m.data m.params t T) :
    ∃ g' m' v, m.evalRob1 g t = (g', m', .ok v) ∧
      (0 < v → Sat .PREVIOUS m.data m.params T t) ∧ (v < 0 → ¬ Sat .PREVIOUS m.data m.params T t) := by
  obtain ⟨g', m', v, h1, h2, -⟩ := evalRob_top_step h hk hu hi
  have h3 := rob_sat (ip := .PREVIOUS) (D := m.data) (P := m.params) (T := T) t
  rw [h2, er_pos, er_neg'] at h3
  exact ⟨g', m', v, h1, h3⟩

/-! ### A concrete formula -/

/-- `(x > 0 or alw_[0,1/2] y > 0) until_[1,4] y > 0`. -/
def stepU : Tr := .untl .init (.or .init (above sx 0) (alwT 0 (1 / 2) (above sy 0))) (lit 1 4) (above sy 0)

/-- `x > 10 or not (y > -3 => stepU)`. -/
def stepF : Tr := .or .init (above sx 10) (.not .init (.implies .init (above sy (-3)) stepU))

theorem cross_head : ∀ row, crossD.head? = some row → rowTime row ≤ 0 := by
  intro row h
  simp only [crossD, List.head?_cons, Option.some.injEq] at h
  subst h
  decide +kernel

theorem cross_x (c : ℚ) {K : ℚ} (hK : ∀ row ∈ crossD, |margin .greater (rowExpr [] row sx) (rowExpr [] row (num c))| ≤ K)
    (t : ℚ) (ht : 0 ≤ t) : -K ≤ margin .greater (expr .PREVIOUS crossD [] sx t) (expr .PREVIOUS crossD [] (num c) t) ∧
      margin .greater (expr .PREVIOUS crossD [] sx t) (expr .PREVIOUS crossD [] (num c) t) ≤ K :=
  prev_abs (n := 2) cross_head (by decide) (k := .greater) (l := sx) (r := num c)
    ⟨⟨1, rfl, by decide, by decide⟩, trivial⟩ hK t ht

theorem cross_y (c : ℚ) {K : ℚ} (hK : ∀ row ∈ crossD, |margin .greater (rowExpr [] row sy) (rowExpr [] row (num c))| ≤ K)
    (t : ℚ) (ht : 0 ≤ t) : -K ≤ margin .greater (expr .PREVIOUS crossD [] sy t) (expr .PREVIOUS crossD [] (num c) t) ∧
      margin .greater (expr .PREVIOUS crossD [] sy t) (expr .PREVIOUS crossD [] (num c) t) ≤ K :=
  prev_abs (n := 2) cross_head (by decide) (k := .greater) (l := sy) (r := num c)
    ⟨⟨2, rfl, by decide, by decide⟩, trivial⟩ hK t ht

theorem stepF_ready : TopStepReady 2 Globals.init.B (mon .PREVIOUS stepF crossD) stepF 0 := by
  have ix : IsExpr 2 sx := ⟨1, rfl, by decide, by decide⟩
  have iy : IsExpr 2 sy := ⟨2, rfl, by decide, by decide⟩
  refine ⟨rfl, rfl, rfl, rfl, crossD_rows, ?_, by decide +kernel, ?_, le_rfl, ?_⟩
  · exact ⟨⟨ix, trivial⟩, ⟨iy, trivial⟩, by decide +kernel, by decide +kernel,
      ⟨⟨ix, trivial⟩, by decide +kernel, by decide +kernel, iy, trivial⟩, iy, trivial⟩
  · exact ⟨fun t h _ => cross_x 10 (by decide +kernel) t h, fun t h _ => cross_y (-3) (by decide +kernel) t h,
      ⟨fun t h _ => cross_x 0 (by decide +kernel) t h,
        fun t h _ => cross_y 0 (by decide +kernel) t (le_trans (by decide +kernel) h)⟩,
      fun t h _ => cross_y 0 (by decide +kernel) t (le_trans (by decide +kernel) h)⟩
  · exact ⟨⟨_, 0, rfl, rfl, by decide +kernel⟩, ⟨_, 5, rfl, rfl, by decide +kernel⟩⟩

theorem cross_y4 {u : ℚ} (h1 : 3 ≤ u) (h2 : u < 5) : trace .PREVIOUS crossD 2 u = 4 := by
  have hc : column crossD 2 = [(0, -1), (2, 1), (3, 4), (5, 0)] := by decide +kernel
  simp only [trace]
  rw [hc]
  simp only [interp]
  split_ifs <;> first | rfl | (exfalso; linarith)

theorem cross_x2 {u : ℚ} (h1 : 3 ≤ u) (h2 : u < 5) : trace .PREVIOUS crossD 1 u = -2 := by
  have hc : column crossD 1 = [(0, 3), (2, 1), (3, -2), (5, 0)] := by decide +kernel
  simp only [trace]
  rw [hc]
  simp only [interp]
  split_ifs <;> first | rfl | (exfalso; linarith)

/-- From time 3 to time 5 neither signal jumps. -/
theorem stepU_ok : TopStepOk crossD [] 0 stepU := by
  refine ⟨⟨Or.inl ⟨trivial, trivial⟩, Or.inl ⟨trivial, trivial⟩, fun _ => ?_, fun _ => ?_⟩,
    Or.inl ⟨trivial, trivial⟩, cross_settles⟩
  · refine ⟨3, by norm_num, by decide +kernel, fun t h1 h2 => ?_⟩
    have h2 : t ≤ 0 + 4 := h2
    show er (margin .greater (trace .PREVIOUS crossD 1 t) 0) = er (margin .greater (trace .PREVIOUS crossD 1 (0 + 4)) 0)
    rw [cross_x2 h1 (by linarith), cross_x2 (by norm_num) (by norm_num)]
  · refine ⟨3, by norm_num, by decide +kernel, fun t h1 h2 => ?_⟩
    have h2 : t ≤ 0 + 4 := h2
    have key : ∀ u : ℚ, 3 ≤ u → u ≤ 4 →
        ⨅ w ∈ Set.Icc (u + 0) (u + 1 / 2), er (margin .greater (trace .PREVIOUS crossD 2 w) 0) = er 4 := by
      intro u h1 h2
      have e : margin .greater (4 : ℚ) 0 = 4 := by decide +kernel
      refine le_antisymm (iInf₂_le_of_le u ⟨by linarith, by linarith⟩ ?_) (le_iInf₂ fun w hw => ?_)
      · rw [cross_y4 h1 (by linarith), e]
      · rw [cross_y4 (by linarith [hw.1]) (by linarith [hw.2]), e]
    show ⨅ w ∈ Set.Icc (t + 0) (t + 1 / 2), er (margin .greater (trace .PREVIOUS crossD 2 w) 0) =
      ⨅ w ∈ Set.Icc (0 + 4 + 0) (0 + 4 + 1 / 2), er (margin .greater (trace .PREVIOUS crossD 2 w) 0)
    rw [key t h1 (by linarith), key (0 + 4) (by norm_num) (by norm_num)]

theorem stepU_inside : BeginsInside .PREVIOUS Globals.init.B crossD [] 0 stepU := by
  have hx := cross_x 0 (K := 5) (by decide +kernel)
  have hy := cross_y 0 (K := 5) (by decide +kernel)
  have lo : er (-Globals.init.B) < er (-5) := by
    refine lt_of_le_of_ne (er_le.2 (by decide +kernel)) fun e => absurd (er_inj e) (by decide +kernel)
  have hi : er 5 < er Globals.init.B := by
    refine lt_of_le_of_ne (er_le.2 (by decide +kernel)) fun e => absurd (er_inj e) (by decide +kernel)
  refine ⟨⟨lo.trans_le ((er_le.2 (hx 0 le_rfl).1).trans (le_max_left _ _)),
    lt_of_le_of_lt (max_le (er_le.2 (hx 0 le_rfl).2) ?_) hi⟩,
    lo.trans_le (er_le.2 (hy _ (by decide +kernel)).1), lt_of_le_of_lt (er_le.2 (hy _ (by decide +kernel)).2) hi⟩
  exact iInf₂_le_of_le (0 + 0) ⟨le_rfl, by decide +kernel⟩ (er_le.2 (hy _ (by decide +kernel)).2)

theorem stepF_ok : TopStepOk crossD [] 0 stepF :=
  ⟨Or.inl ⟨trivial, trivial⟩, Or.inl ⟨trivial, trivial⟩, stepU_ok⟩

theorem stepF_trim : Untrimmed [] 0 0 stepF := ⟨trivial, trivial, ⟨trivial, trivial⟩, trivial⟩

example : ∃ g' m' v, (mon .PREVIOUS stepF crossD).evalRob1 .init 0 = (g', m', .ok v) ∧
    rob .PREVIOUS crossD [] stepF 0 = er v ∧ m'.rob = v ∧ m'.lowerRob = v ∧ m'.upperRob = v :=
  C67_previous_partial _ _ 2 _ _ stepF_ready stepF_ok stepF_trim ⟨trivial, trivial, stepU_inside⟩

/-- The value in this case is -1. -/
example : results (mon .PREVIOUS stepF crossD) 0 = (.ok (-1), -1, -1) := by decide +kernel

example : ¬ Sat .PREVIOUS crossD [] stepF 0 := by
  obtain ⟨g', m', v, h1, -, h2⟩ := C38_until_previous_partial .init (mon .PREVIOUS stepF crossD) 2 stepF 0
    stepF_ready stepF_ok stepF_trim ⟨trivial, trivial, stepU_inside⟩
  refine h2 ?_
  have e : ((mon .PREVIOUS stepF crossD).evalRob1 .init 0).2.2 = .ok (-1) := by decide +kernel
  rw [h1] at e
  obtain rfl : v = -1 := by simpa using e
  norm_num

theorem stepU_ready : TopStepReady 2 Globals.init.B (mon .PREVIOUS stepU crossD) stepU 0 :=
  ⟨rfl, rfl, rfl, rfl, crossD_rows, stepF_ready.shape.2.2, stepF_ready.big, stepF_ready.within.2.2, le_rfl,
    ⟨⟨_, 0, rfl, rfl, by decide +kernel⟩, ⟨_, 5, rfl, rfl, by decide +kernel⟩⟩⟩

example : rob .PREVIOUS crossD [] stepU 0 = er 1 := by
  obtain ⟨g', m', v, h1, h2, -⟩ := C67_single_previous_partial .init (mon .PREVIOUS stepU crossD) 2 _ _ _ _ 1 0
    stepU_ready stepU_ok stepF_trim.2.2 rfl
  have e : ((mon .PREVIOUS stepU crossD).evalRob1 .init 0).2.2 = .ok 1 := by decide +kernel
  rw [h1] at e
  obtain rfl : v = 1 := by simpa using e
  exact h2

/-! ### What fails -/

/-- `x > 0 and (alw_[0,1] x > 0 until_[0,2] y > 0)`. -/
def lostF : Tr := .and .init (above sx 0) (.untl .init (alwT 0 1 (above sx 0)) (lit 0 2) (above sy 0))

theorem edge_head : ∀ row, edgeD.head? = some row → rowTime row ≤ 0 := by
  intro row h
  simp only [edgeD, List.head?_cons, Option.some.injEq] at h
  subst h
  decide +kernel

theorem edge_x (t : ℚ) (ht : 0 ≤ t) : trace .PREVIOUS edgeD 1 t = 5 := by
  have hc : column edgeD 1 = [(0, 5), (2, 5), (3, 5)] := by decide +kernel
  simp only [trace]
  rw [hc]
  simp only [interp]
  split_ifs <;> first | rfl | (exfalso; linarith)

theorem lostF_ready : TopStepReady 2 Globals.init.B (mon .PREVIOUS lostF edgeD) lostF 0 := by
  have ix : IsExpr 2 sx := ⟨1, rfl, by decide, by decide⟩
  have iy : IsExpr 2 sy := ⟨2, rfl, by decide, by decide⟩
  have hx := prev_abs (P := []) (K := Globals.init.B) (n := 2) edge_head (by decide) (k := .greater) (l := sx)
    (r := num 0) ⟨ix, trivial⟩ (by decide +kernel)
  have hy := prev_abs (P := []) (K := Globals.init.B) (n := 2) edge_head (by decide) (k := .greater) (l := sy)
    (r := num 0) ⟨iy, trivial⟩ (by decide +kernel)
  refine ⟨rfl, rfl, rfl, rfl, edgeD_rows, ?_, by decide +kernel, ?_, le_rfl, ?_⟩
  · exact ⟨⟨ix, trivial⟩, by decide +kernel, by decide +kernel,
      ⟨by decide +kernel, by decide +kernel, ix, trivial⟩, iy, trivial⟩
  · exact ⟨fun t h _ => hx t h, fun t h _ => hx t (le_trans (by decide +kernel) h),
      fun t h _ => hy t (le_trans (by decide +kernel) h)⟩
  · exact ⟨⟨_, 0, rfl, rfl, by decide +kernel⟩, ⟨_, 3, rfl, rfl, by decide +kernel⟩⟩

/-- C67 is false with PREVIOUS interpolation: `y` jumps from -1 to 4 when the window of the `until`
ends.  The robustness of `x > 0 and (alw_[0,1] x > 0 until_[0,2] y > 0)` is at least 4, but the
evaluation and both bounds are -1. -/
theorem C67_previous_false : ¬ C67_previous_full := by
  intro h
  have m5 : margin .greater (5 : ℚ) 0 = 5 := by decide +kernel
  have al : ∀ w : ℚ, 0 ≤ w → ⨅ u ∈ Set.Icc (w + 0) (w + 1), er (margin .greater (trace .PREVIOUS edgeD 1 u) 0) = er 5 := by
    intro w hw
    refine le_antisymm (iInf₂_le_of_le w ⟨by linarith, by linarith⟩ ?_) (le_iInf₂ fun u hu => ?_)
    · rw [edge_x w hw, m5]
    · rw [edge_x u (by linarith [hu.1]), m5]
  have inside : ∀ v : ℚ, -5 ≤ v → v ≤ 5 → Inside Globals.init.B (er v) := by
    intro v h1 h2
    have B5 : (5 : ℚ) < Globals.init.B := by decide +kernel
    refine ⟨lt_of_le_of_ne (er_le.2 (by linarith)) fun e => ?_,
      lt_of_le_of_ne (er_le.2 (by linarith)) fun e => ?_⟩
    · have := er_inj e; linarith
    · have := er_inj e; linarith
  obtain ⟨g', m', v, h1, h2, -⟩ := h .init (mon .PREVIOUS lostF edgeD) 2 lostF 0 lostF_ready
    ⟨trivial, by
      show Inside _ (⨅ u ∈ Set.Icc ((0 : ℚ) + 0) (0 + 1), er (margin .greater (trace .PREVIOUS edgeD 1 u) 0))
      rw [al 0 le_rfl]
      exact inside 5 (by norm_num) le_rfl,
      inside (margin .greater (trace .PREVIOUS edgeD 2 (0 + 0)) 0) (by decide +kernel) (by decide +kernel)⟩
    ⟨trivial, trivial, trivial⟩
  have h3 : ((mon .PREVIOUS lostF edgeD).evalRob1 .init 0).2.2 = .ok (-1) := by decide +kernel
  rw [h1] at h3
  obtain rfl := Except.ok.inj h3
  have key : er 4 ≤ er (-1) := by
    rw [← h2]
    show er 4 ≤ er (margin .greater (trace .PREVIOUS edgeD 1 0) 0) ⊓ ⨆ u ∈ Set.Icc ((0 : ℚ) + 0) (0 + 2),
      er (margin .greater (trace .PREVIOUS edgeD 2 u) 0) ⊓ ⨅ w ∈ Set.Icc 0 u,
        ⨅ u ∈ Set.Icc (w + 0) (w + 1), er (margin .greater (trace .PREVIOUS edgeD 1 u) 0)
    refine le_inf ?_ (le_iSup₂_of_le 2 ⟨by norm_num, by norm_num⟩ (le_inf ?_ (le_iInf₂ fun w hw => ?_)))
    · rw [edge_x 0 le_rfl, m5]
      exact er_le.2 (by norm_num)
    · exact er_le.2 (by decide +kernel)
    · rw [al w hw.1]
      exact er_le.2 (by norm_num)
  exact absurd (er_le.1 key) (by norm_num)

end Props
end STLRom
