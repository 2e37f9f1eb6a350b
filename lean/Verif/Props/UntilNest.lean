import Verif.Props.UntilTopStep
import Verif.Proofs.UntilNest

/-!
# Property C22 for formulas with `until` anywhere
-/

namespace STLRom
namespace Props
open Signal Spec

/-- The full claim for formulas with `until`: with PREVIOUS interpolation, on a covering trace with all
comparisons within `±B`, a number returned by `eval_rob` is the robustness. -/
def C22_until_full : Prop := ∀ (g g' : Globals) (m m' : Monitor) (n : ℕ) (T : Tr) (t v : ℚ),
  m.formula = some T → m.sem = .SPACE → m.ip = .PREVIOUS → m.params.lookup "" = none →
  WellShaped n m.data → IsUntilFormula n m.params T →
  AtomsWithin .PREVIOUS g.B m.data m.params t t T → 0 ≤ t → Covers m.data t (t + reach m.params T) →
  m.evalRob1 g t = (g', m', .ok v) → rob .PREVIOUS m.data m.params T t = er v

/-- C22 for formulas with `until` below temporal operators, nested in any way, also in the operands of
other `until`s, where no operand of a Boolean operator and no right operand of an `until` jumps exactly at
the end of its evaluation interval.  Missing: `until` that is not below an `ev` or `alw` of positive
length, where it is false (`C22_until_false`; C67 has the cases where it holds), and jumps at the end of
an evaluation interval (`C22_false`).  A number need not be returned (`C17_until_false`). -/
theorem C22_until_partial (g g' : Globals) (m m' : Monitor) (n : ℕ) (T : Tr) (t v : ℚ)
    (h : NestReady n g.B m T t) (hv : m.evalRob1 g t = (g', m', .ok v)) :
    rob .PREVIOUS m.data m.params T t = er v :=
  evalRob_nest h hv

/-- The sign of the returned number decides satisfaction for the same formulas. -/
theorem C38_nested_partial (g g' : Globals) (m m' : Monitor) (n : ℕ) (T : Tr) (t v : ℚ)
    (h : NestReady n g.B m T t) (hv : m.evalRob1 g t = (g', m', .ok v)) :
    (0 < v → Sat .PREVIOUS m.data m.params T t) ∧ (v < 0 → ¬ Sat .PREVIOUS m.data m.params T t) := by
  have h3 := rob_sat (ip := .PREVIOUS) (D := m.data) (P := m.params) (T := T) t
  rw [evalRob_nest h hv, er_pos, er_neg'] at h3
  exact h3

/-! ### A concrete formula -/

/-- `ev_[0,1] ((x > 0 until_[0,1/2] y > -2) until_[1,3] y > 0)`. -/
def nestU : Tr :=
  evT 0 1 (.untl .init (.untl .init (above sx 0) (lit 0 (1 / 2)) (above sy (-2))) (lit 1 3) (above sy 0))

/-- `y` is 4 from time 3 to time 5. -/
theorem crossD_y (u : ℚ) (h1 : 3 ≤ u) (h2 : u < 5) : trace .PREVIOUS crossD 2 u = 4 := by
  have hc : column crossD 2 = [(0, -1), (2, 1), (3, 4), (5, 0)] := by decide +kernel
  simp only [trace]
  rw [hc]
  simp only [interp]
  split_ifs <;> first | rfl | (exfalso; linarith)

theorem nestU_ready : NestReady 2 Globals.init.B (mon .PREVIOUS nestU crossD) nestU 0 := by
  have hs : ∀ (c S E : ℚ), S ≤ 3 → 3 < E → E < 5 → Settles (rob .PREVIOUS crossD [] (above sy c)) S E := by
    intro c S E h1 h2 h3 _
    refine ⟨3, h1, h2, fun t k1 k2 => ?_⟩
    show er (margin .greater (trace .PREVIOUS crossD 2 t) c) = er (margin .greater (trace .PREVIOUS crossD 2 E) c)
    rw [crossD_y t k1 (by linarith), crossD_y E h2.le h3]
  refine ⟨rfl, rfl, rfl, rfl, crossD_rows, ?_, ?_, ?_, le_rfl, ?_⟩
  · exact ⟨show (0 : ℚ) ≤ 0 by norm_num, show (0 : ℚ) ≤ 1 by norm_num, show (0 : ℚ) ≤ 1 by norm_num,
      show (1 : ℚ) < 3 by norm_num, ⟨show (0 : ℚ) ≤ 0 by norm_num, show (0 : ℚ) < 1 / 2 by norm_num,
        ⟨⟨1, rfl, by decide, by decide⟩, trivial⟩, ⟨2, rfl, by decide, by decide⟩, trivial⟩,
      ⟨2, rfl, by decide, by decide⟩, trivial⟩
  · exact ⟨show (0 : ℚ) + 0 < 0 + 1 by norm_num,
      ⟨show (0 : ℚ) + 0 < 0 + 1 + 3 by norm_num, Or.inl ⟨trivial, trivial⟩, Or.inl ⟨trivial, trivial⟩,
        hs _ _ _ (show (0 : ℚ) + 0 + 0 ≤ 3 by norm_num) (show (3 : ℚ) < 0 + 1 + 3 + 1 / 2 by norm_num)
          (show (0 : ℚ) + 1 + 3 + 1 / 2 < 5 by norm_num)⟩,
      Or.inl ⟨trivial, trivial⟩,
      hs _ _ _ (show (0 : ℚ) + 0 + 1 ≤ 3 by norm_num) (show (3 : ℚ) < 0 + 1 + 3 by norm_num)
        (show (0 : ℚ) + 1 + 3 < 5 by norm_num)⟩
  · refine ⟨⟨fun t h _ => cross_x 0 (by decide +kernel) t ?_, fun t h _ => cross_y (-2) (by decide +kernel) t ?_⟩,
      fun t h _ => cross_y 0 (by decide +kernel) t ?_⟩
    · exact le_trans (show (0 : ℚ) ≤ 0 + 0 by norm_num) h
    · exact le_trans (show (0 : ℚ) ≤ 0 + 0 + 0 by norm_num) h
    · exact le_trans (show (0 : ℚ) ≤ 0 + 0 + 1 by norm_num) h
  · exact ⟨⟨_, 0, rfl, rfl, le_rfl⟩,
      ⟨_, 5, rfl, rfl, show (0 : ℚ) + (1 + (3 + max (1 / 2 + max 0 0) 0)) ≤ 5 by decide +kernel⟩⟩

theorem nestU_runs : ((mon .PREVIOUS nestU crossD).evalRob1 .init 0).2.2 = .ok 1 := by decide +kernel

example : rob .PREVIOUS crossD [] nestU 0 = er 1 :=
  C22_until_partial .init _ (mon .PREVIOUS nestU crossD) _ 2 nestU 0 1 nestU_ready
    (Prod.ext rfl (Prod.ext rfl nestU_runs))

example : Sat .PREVIOUS crossD [] nestU 0 :=
  (C38_nested_partial .init _ (mon .PREVIOUS nestU crossD) _ 2 nestU 0 1 nestU_ready
    (Prod.ext rfl (Prod.ext rfl nestU_runs))).1 one_pos

/-! ### `until` over two `until`s, later than time 0 -/

/-- `(x > 0 until_[0,1] x > 0) until_[0,1] (x > 0 until_[0,1] y > 0)`. -/
def twoU : Tr := .untl .init (.untl .init (above sx 0) (lit 0 1) (above sx 0)) (lit 0 1) (xUy 0 1)

/-- `x` is 5 throughout; `y` jumps from -1 to 4 at time 7/2. -/
def twoD : List (List ℚ) := [[0, 5, -1], [7 / 2, 5, 4], [12, 5, 4]]

theorem twoD_x (u : ℚ) (h : 0 ≤ u) : trace .PREVIOUS twoD 1 u = 5 := by
  have hc : column twoD 1 = [(0, 5), (7 / 2, 5), (12, 5)] := by decide +kernel
  simp only [trace]
  rw [hc]
  simp only [interp]
  split_ifs <;> first | rfl | (exfalso; linarith)

/-- The claim is false for an `until` over two `until`s: their signals are extended back to time 0, and
`eval_rob(2)` returns the value of the outer `until` at time 0 of the extended signals, -1.  The
robustness is 4, no operand jumps at the end of an evaluation interval, and `lower_rob` is 4. -/
theorem C22_until_false : ¬ C22_until_full := by
  intro h
  have hh : ∀ row, twoD.head? = some row → rowTime row ≤ 0 := by
    intro row h
    simp only [twoD, List.head?_cons, Option.some.injEq] at h
    subst h
    decide +kernel
  have wx : ∀ u, (0 : ℚ) ≤ u → _ := fun u hu => prev_abs (n := 2) hh (by decide) (k := .greater) (l := sx) (r := num 0)
    (P := []) (K := Globals.init.B) ⟨⟨1, rfl, by decide, by decide⟩, trivial⟩ (by decide +kernel) u hu
  have wy : ∀ u, (0 : ℚ) ≤ u → _ := fun u hu => prev_abs (n := 2) hh (by decide) (k := .greater) (l := sy) (r := num 0)
    (P := []) (K := Globals.init.B) ⟨⟨2, rfl, by decide, by decide⟩, trivial⟩ (by decide +kernel) u hu
  have hx : IsUntilFormula 2 [] (above sx 0) := ⟨⟨1, rfl, by decide, by decide⟩, trivial⟩
  have hy : IsUntilFormula 2 [] (above sy 0) := ⟨⟨2, rfl, by decide, by decide⟩, trivial⟩
  have z0 : (0 : ℚ) ≤ 0 := le_rfl
  have z1 : (0 : ℚ) < 1 := by norm_num
  have h1 := h .init _ (mon .PREVIOUS twoU twoD) _ 2 twoU 2 (-1) rfl rfl rfl rfl
    (by
      refine ⟨by decide +kernel, ?_⟩
      simp only [mon, twoD, List.pairwise_cons, List.mem_cons, List.not_mem_nil, or_false]
      simp
      norm_num)
    ⟨z0, z1, ⟨z0, z1, hx, hx⟩, z0, z1, hx, hy⟩
    ⟨⟨fun u k _ => wx u (le_trans (by decide +kernel) k), fun u k _ => wx u (le_trans (by decide +kernel) k)⟩,
      fun u k _ => wx u (le_trans (by decide +kernel) k), fun u k _ => wy u (le_trans (by decide +kernel) k)⟩
    (by norm_num)
    ⟨⟨_, 0, rfl, rfl, by norm_num⟩, ⟨_, 12, rfl, rfl, by decide +kernel⟩⟩
    (Prod.ext rfl (Prod.ext rfl (by decide +kernel)))
  have key : er 4 ≤ er (-1) := by
    rw [← h1]
    have e5 : ∀ w : ℚ, 0 ≤ w → er 4 ≤ rob .PREVIOUS twoD [] (above sx 0) w := by
      intro w hw
      show er 4 ≤ er (margin .greater (trace .PREVIOUS twoD 1 w) 0)
      rw [twoD_x w hw]
      exact er_le.2 (by decide +kernel)
    have e4 : er 4 ≤ rob .PREVIOUS twoD [] (above sy 0) (7 / 2) := er_le.2 (by decide +kernel)
    refine le_iSup₂_of_le (5 / 2 : ℚ) ⟨show (2 : ℚ) + 0 ≤ 5 / 2 by norm_num, show (5 / 2 : ℚ) ≤ 2 + 1 by norm_num⟩
      (le_inf ?_ (le_iInf₂ fun w hw => ?_))
    · refine le_iSup₂_of_le (7 / 2 : ℚ) ⟨show (5 / 2 : ℚ) + 0 ≤ 7 / 2 by norm_num, show (7 / 2 : ℚ) ≤ 5 / 2 + 1 by norm_num⟩
        (le_inf e4 (le_iInf₂ fun w hw => e5 w (by linarith [hw.1])))
    · have h2 : (2 : ℚ) ≤ w := hw.1
      refine le_iSup₂_of_le w ⟨show w + 0 ≤ w by linarith, show w ≤ w + 1 by linarith⟩
        (le_inf (e5 w (by linarith)) (le_iInf₂ fun v hv => e5 v (by linarith [hv.1])))
  exact absurd (er_le.1 key) (by norm_num)

/-- The lower bound of that evaluation is above the value it returns. -/
theorem C22_until_bounds : results (mon .PREVIOUS twoU twoD) 2 = (.ok (-1), 4, 4) := by decide +kernel

end Props
end STLRom
