import Verif.Props.UntilNest
import Verif.Props.UntilFacts
import Verif.Proofs.NestFacts

/-!
# C39, C75 and C76 for formulas with `until` below temporal operators
-/

namespace STLRom
namespace Props
open Signal Spec Fp

/-- C39 for the formulas of `C22_until_partial`: if no margin differs by more than `d` in any row, two
numbers returned differ by at most `d`.  Missing: the formulas excluded by `NestReady`. -/
theorem C39_nested_partial (g1 g1' g2 g2' : Globals) (m1 m1' m2 m2' : Monitor) (n : ℕ) (T : Tr) (t d v1 v2 : ℚ)
    (h1 : NestReady n g1.B m1 T t) (h2 : NestReady n g2.B m2 T t)
    (hp : m1.params = m2.params) (ht : m1.data.map (·.head?) = m2.data.map (·.head?))
    (hd : SampledNear d m1.data m2.data m1.params T)
    (e1 : m1.evalRob1 g1 t = (g1', m1', .ok v1)) (e2 : m2.evalRob1 g2 t = (g2', m2', .ok v2)) :
    |v1 - v2| ≤ d ∧
      (d < |v1| → (Sat .PREVIOUS m1.data m1.params T t ↔ Sat .PREVIOUS m2.data m2.params T t)) := by
  have r1 := evalRob_nest h1 e1
  have r2 := evalRob_nest h2 e2
  obtain ⟨hne, h0⟩ := firstRow h1.covers.1
  have hn := rob_near_nest t t h1.shape (atomsNear_nest (rowTimes ht) hne t t h0 h1.shape hd) t le_rfl le_rfl
  have s1 := rob_sat (ip := .PREVIOUS) (D := m1.data) (P := m1.params) (T := T) t
  have s2 := rob_sat (ip := .PREVIOUS) (D := m2.data) (P := m2.params) (T := T) t
  rw [r1, er_pos, er_neg'] at s1
  rw [r2, er_pos, er_neg'] at s2
  rw [r1, hp, r2] at hn
  simp only [Near, ← er_add, er_le] at hn
  have hle : |v1 - v2| ≤ d := abs_le.2 ⟨by linarith [hn.2], by linarith [hn.1]⟩
  refine ⟨hle, fun hlt => ?_⟩
  have hle' := abs_le.1 hle
  rcases abs_cases v1 with ⟨c1, c2⟩ | ⟨c1, c2⟩
  · exact iff_of_true (s1.1 (by linarith)) (s2.1 (by linarith))
  · exact iff_of_false (s1.2 (by linarith)) (s2.2 (by linarith))

/-- C75 for the formulas of `C22_until_partial`: if no margin counted positively is smaller and none
counted negatively is larger, a number returned is not smaller.  Missing: the formulas excluded by
`NestReady`. -/
theorem C75_nested_partial (g1 g1' g2 g2' : Globals) (m1 m1' m2 m2' : Monitor) (n : ℕ) (T : Tr) (t v1 v2 : ℚ)
    (h1 : NestReady n g1.B m1 T t) (h2 : NestReady n g2.B m2 T t)
    (hp : m1.params = m2.params) (ht : m1.data.map (·.head?) = m2.data.map (·.head?))
    (hd : SampledUp m1.data m2.data m1.params true T)
    (e1 : m1.evalRob1 g1 t = (g1', m1', .ok v1)) (e2 : m2.evalRob1 g2 t = (g2', m2', .ok v2)) : v1 ≤ v2 := by
  have r1 := evalRob_nest h1 e1
  have r2 := evalRob_nest h2 e2
  obtain ⟨hne, h0⟩ := firstRow h1.covers.1
  have := rob_up (atomsUp_nest (rowTimes ht) hne h0 h1.shape hd) h1.shape.onward t le_rfl
  rw [r1, hp, r2] at this
  exact er_le.1 this

/-- C76 for the formulas of `C22_until_partial`: evaluation in doubles, with times on a grid and margins
that are doubles, returns the robustness of STL without any error. -/
theorem C76_nested_partial (g g' : Globals) (m m' : Monitor) (n j : ℕ) (T : Tr) (t h v : ℚ)
    (hr : NestReady n g.B m T t) (hB : dbl g.B = g.B) (hj : j ≤ 45)
    (hk : MarginsKept dbl m.data m.params T) (hb : BoundsIn (OnGrid j) m.params T) (hst : OnGrid j t ∧ |t| ≤ h)
    (hU : ∀ row ∈ m.data, OnGrid j (rowTime row) ∧ |rowTime row| ≤ h)
    (hR : 2 * (h + allReach m.params T) ≤ 2 ^ 50 / 2 ^ j)
    (hv : Fp.evalRob1 dbl g m t = (g', m', .ok v)) : rob .PREVIOUS m.data m.params T t = er v := by
  have e : Fp.evalRob1 dbl g m t = m.evalRob1 g t :=
    C76_partial g m n j T t t h hr.formula hr.interpol hr.sem hr.names hr.rows hr.shape.declared hB hj hk hb hst hst hU hR
  exact evalRob_nest hr (e ▸ hv)

/-- C76 for the formulas of `C67_previous_partial`, with `until` outside temporal operators: evaluation in
doubles returns a number, and it and both bounds are the robustness of STL. -/
theorem C76_until_partial (g : Globals) (m : Monitor) (n j : ℕ) (T : Tr) (t h : ℚ)
    (hr : TopStepReady n g.B m T t) (ho : TopStepOk m.data m.params t T) (hu : Untrimmed m.params t t T)
    (hi : BeginsInside .PREVIOUS g.B m.data m.params t T) (hB : dbl g.B = g.B) (hj : j ≤ 45)
    (hk : MarginsKept dbl m.data m.params T) (hb : BoundsIn (OnGrid j) m.params T) (hst : OnGrid j t ∧ |t| ≤ h)
    (hU : ∀ row ∈ m.data, OnGrid j (rowTime row) ∧ |rowTime row| ≤ h)
    (hR : 2 * (h + allReach m.params T) ≤ 2 ^ 50 / 2 ^ j) :
    ∃ g' m' v, Fp.evalRob1 dbl g m t = (g', m', .ok v) ∧ rob .PREVIOUS m.data m.params T t = er v ∧
      m'.rob = v ∧ m'.lowerRob = v ∧ m'.upperRob = v := by
  have e : Fp.evalRob1 dbl g m t = m.evalRob1 g t :=
    C76_partial g m n j T t t h hr.formula hr.interpol hr.sem hr.names hr.rows hr.shape.nest.declared hB hj hk hb hst hst hU hR
  rw [e]
  exact evalRob_top_step hr ho hu hi

/-! ### Concrete cases -/

/-- `crossD` with `y` raised by 1/2 in the first row, and both signals in the second. -/
def nestUpD : List (List ℚ) := [[0, 3, -1 / 2], [2, 3 / 2, 3 / 2], [3, -2, 4], [5, 0, 0]]

theorem nestUp_rows (D : List (List ℚ)) (hD : D = crossD ∨ D = nestUpD) : WellShaped 2 D := by
  rcases hD with rfl | rfl
  · exact crossD_rows
  · refine ⟨by decide +kernel, ?_⟩
    simp only [nestUpD, List.pairwise_cons, List.mem_cons, List.not_mem_nil, or_false]
    simp
    norm_num

theorem nestUp_ready (D : List (List ℚ)) (hD : D = crossD ∨ D = nestUpD) :
    NestReady 2 Globals.init.B (mon .PREVIOUS nestU D) nestU 0 := by
  have key : ∀ u : ℚ, 3 ≤ u → u < 5 → trace .PREVIOUS D 2 u = 4 := by
    intro u h1 h2
    have hc : column D 2 = [(0, -1), (2, 1), (3, 4), (5, 0)] ∨ column D 2 = [(0, -1 / 2), (2, 3 / 2), (3, 4), (5, 0)] := by
      rcases hD with rfl | rfl
      · exact Or.inl (by decide +kernel)
      · exact Or.inr (by decide +kernel)
    simp only [trace]
    rcases hc with hc | hc <;> rw [hc] <;> simp only [interp] <;> split_ifs <;>
      first | rfl | (exfalso; linarith)
  have hs : ∀ (c S E : ℚ), S ≤ 3 → 3 < E → E < 5 → Settles (rob .PREVIOUS D [] (above sy c)) S E := by
    intro c S E h1 h2 h3 _
    refine ⟨3, h1, h2, fun t k1 k2 => ?_⟩
    show er (margin .greater (trace .PREVIOUS D 2 t) c) = er (margin .greater (trace .PREVIOUS D 2 E) c)
    rw [key t k1 (by linarith), key E h2.le h3]
  have ix : IsExpr 2 sx := ⟨1, rfl, by decide, by decide⟩
  have iy : IsExpr 2 sy := ⟨2, rfl, by decide, by decide⟩
  have hh : ∀ row, D.head? = some row → rowTime row ≤ 0 := by
    intro row hrow
    rcases hD with rfl | rfl <;> simp only [crossD, nestUpD, List.head?_cons, Option.some.injEq] at hrow <;>
      subst hrow <;> decide +kernel
  have hne : D ≠ [] := by rcases hD with rfl | rfl <;> decide
  have hx := prev_abs (P := []) (K := Globals.init.B) (n := 2) hh hne (k := .greater) (l := sx) (r := num 0) ⟨ix, trivial⟩
    (by rcases hD with rfl | rfl <;> decide +kernel)
  have hy := prev_abs (P := []) (K := Globals.init.B) (n := 2) hh hne (k := .greater) (l := sy) (r := num 0) ⟨iy, trivial⟩
    (by rcases hD with rfl | rfl <;> decide +kernel)
  have hy2 := prev_abs (P := []) (K := Globals.init.B) (n := 2) hh hne (k := .greater) (l := sy) (r := num (-2)) ⟨iy, trivial⟩
    (by rcases hD with rfl | rfl <;> decide +kernel)
  refine ⟨rfl, rfl, rfl, rfl, nestUp_rows D hD, nestU_ready.shape, ?_, ?_, le_rfl, ?_⟩
  · exact ⟨show (0 : ℚ) + 0 < 0 + 1 by norm_num,
      ⟨show (0 : ℚ) + 0 < 0 + 1 + 3 by norm_num, Or.inl ⟨trivial, trivial⟩, Or.inl ⟨trivial, trivial⟩,
        hs _ _ _ (show (0 : ℚ) + 0 + 0 ≤ 3 by norm_num) (show (3 : ℚ) < 0 + 1 + 3 + 1 / 2 by norm_num)
          (show (0 : ℚ) + 1 + 3 + 1 / 2 < 5 by norm_num)⟩,
      Or.inl ⟨trivial, trivial⟩,
      hs _ _ _ (show (0 : ℚ) + 0 + 1 ≤ 3 by norm_num) (show (3 : ℚ) < 0 + 1 + 3 by norm_num)
        (show (0 : ℚ) + 1 + 3 < 5 by norm_num)⟩
  · exact ⟨⟨fun t h _ => hx t (le_trans (show (0 : ℚ) ≤ 0 + 0 by norm_num) h),
      fun t h _ => hy2 t (le_trans (show (0 : ℚ) ≤ 0 + 0 + 0 by norm_num) h)⟩,
      fun t h _ => hy t (le_trans (show (0 : ℚ) ≤ 0 + 0 + 1 by norm_num) h)⟩
  · rcases hD with rfl | rfl <;> exact ⟨⟨_, 0, rfl, rfl, le_rfl⟩,
      ⟨_, 5, rfl, rfl, show (0 : ℚ) + (1 + (3 + max (1 / 2 + max 0 0) 0)) ≤ 5 by decide +kernel⟩⟩

theorem nestUp_runs : ((mon .PREVIOUS nestU nestUpD).evalRob1 .init 0).2.2 = .ok (3 / 2) := by decide +kernel

example : |(1 : ℚ) - 3 / 2| ≤ 1 / 2 ∧ (1 / 2 < |(1 : ℚ)| → (Sat .PREVIOUS crossD [] nestU 0 ↔ Sat .PREVIOUS nestUpD [] nestU 0)) :=
  C39_nested_partial .init _ .init _ (mon .PREVIOUS nestU crossD) _ (mon .PREVIOUS nestU nestUpD) _ 2 nestU 0 (1 / 2) 1 (3 / 2)
    (nestUp_ready _ (Or.inl rfl)) (nestUp_ready _ (Or.inr rfl)) rfl (by decide +kernel)
    ⟨⟨show ∀ row ∈ crossD.zip nestUpD, |margin .greater (rowExpr [] row.1 sx) (rowExpr [] row.1 (num 0)) -
        margin .greater (rowExpr [] row.2 sx) (rowExpr [] row.2 (num 0))| ≤ 1 / 2 by decide +kernel,
      show ∀ row ∈ crossD.zip nestUpD, |margin .greater (rowExpr [] row.1 sy) (rowExpr [] row.1 (num (-2))) -
        margin .greater (rowExpr [] row.2 sy) (rowExpr [] row.2 (num (-2)))| ≤ 1 / 2 by decide +kernel⟩,
      show ∀ row ∈ crossD.zip nestUpD, |margin .greater (rowExpr [] row.1 sy) (rowExpr [] row.1 (num 0)) -
        margin .greater (rowExpr [] row.2 sy) (rowExpr [] row.2 (num 0))| ≤ 1 / 2 by decide +kernel⟩
    (Prod.ext rfl (Prod.ext rfl nestU_runs)) (Prod.ext rfl (Prod.ext rfl nestUp_runs))

example : (1 : ℚ) ≤ 3 / 2 :=
  C75_nested_partial .init _ .init _ (mon .PREVIOUS nestU crossD) _ (mon .PREVIOUS nestU nestUpD) _ 2 nestU 0 1 (3 / 2)
    (nestUp_ready _ (Or.inl rfl)) (nestUp_ready _ (Or.inr rfl)) rfl (by decide +kernel)
    ⟨⟨show ∀ row ∈ crossD.zip nestUpD, margin .greater (rowExpr [] row.1 sx) (rowExpr [] row.1 (num 0)) ≤
        margin .greater (rowExpr [] row.2 sx) (rowExpr [] row.2 (num 0)) by decide +kernel,
      show ∀ row ∈ crossD.zip nestUpD, margin .greater (rowExpr [] row.1 sy) (rowExpr [] row.1 (num (-2))) ≤
        margin .greater (rowExpr [] row.2 sy) (rowExpr [] row.2 (num (-2))) by decide +kernel⟩,
      show ∀ row ∈ crossD.zip nestUpD, margin .greater (rowExpr [] row.1 sy) (rowExpr [] row.1 (num 0)) ≤
        margin .greater (rowExpr [] row.2 sy) (rowExpr [] row.2 (num 0)) by decide +kernel⟩
    (Prod.ext rfl (Prod.ext rfl nestU_runs)) (Prod.ext rfl (Prod.ext rfl nestUp_runs))

theorem crossD_grid (j : ℕ) (hj : j = 1) : ∀ row ∈ crossD, OnGrid j (rowTime row) ∧ |rowTime row| ≤ 5 := by
  subst hj
  intro row hr
  simp only [crossD, List.mem_cons, List.not_mem_nil, or_false] at hr
  rcases hr with rfl | rfl | rfl | rfl
  · exact ⟨⟨0, by decide +kernel⟩, by decide +kernel⟩
  · exact ⟨⟨4, by decide +kernel⟩, by decide +kernel⟩
  · exact ⟨⟨6, by decide +kernel⟩, by decide +kernel⟩
  · exact ⟨⟨10, by decide +kernel⟩, by decide +kernel⟩

theorem nestU_doubles : (Fp.evalRob1 dbl .init (mon .PREVIOUS nestU crossD) 0).2.2 = .ok 1 := by decide +kernel

example : rob .PREVIOUS crossD [] nestU 0 = er 1 :=
  C76_nested_partial .init _ (mon .PREVIOUS nestU crossD) _ 2 1 nestU 0 5 1 nestU_ready (by decide +kernel) (by decide)
    (by simp only [MarginsKept, ExprKept, nestU, evT, above, sx, sy, num, mon]; decide +kernel)
    ⟨⟨0, by decide +kernel⟩, ⟨2, by decide +kernel⟩, ⟨2, by decide +kernel⟩, ⟨6, by decide +kernel⟩,
      ⟨⟨0, by decide +kernel⟩, ⟨1, by decide +kernel⟩, trivial, trivial⟩, trivial⟩
    ⟨⟨0, by norm_num⟩, by norm_num⟩ (crossD_grid 1 rfl) (by decide +kernel)
    (Prod.ext rfl (Prod.ext rfl nestU_doubles))

example : ∃ g' m' v, Fp.evalRob1 dbl .init (mon .PREVIOUS (xUy 1 4) crossD) 0 = (g', m', .ok v) ∧
    rob .PREVIOUS crossD [] (xUy 1 4) 0 = er v ∧ m'.rob = v ∧ m'.lowerRob = v ∧ m'.upperRob = v :=
  C76_until_partial .init (mon .PREVIOUS (xUy 1 4) crossD) 2 1 (xUy 1 4) 0 5
    (crossUp_ready _ (Or.inl rfl)).1 (crossUp_ready _ (Or.inl rfl)).2.1 ⟨trivial, trivial⟩
    (crossUp_ready _ (Or.inl rfl)).2.2 (by decide +kernel) (by decide)
    (by simp only [MarginsKept, ExprKept, xUy, above, sx, sy, num, mon]; decide +kernel)
    ⟨⟨2, by decide +kernel⟩, ⟨8, by decide +kernel⟩, trivial, trivial⟩
    ⟨⟨0, by norm_num⟩, by norm_num⟩ (crossD_grid 1 rfl) (by decide +kernel)

end Props
end STLRom
