import Verif.Props.Correct
import Verif.Props.UntilTopStep
import Verif.Proofs.UntilFacts

/-!
# C39 with `until`, and C75 with `until` and PREVIOUS interpolation
-/

namespace STLRom
namespace Props
open Signal Spec

/-- C39 with `until` outside the temporal operators: if no margin differs by more than `d` in any row,
both evaluations return numbers, these differ by at most `d`, and so do the bounds.  Missing: `until`
below temporal operators, and the formulas excluded by the conditions of C67. -/
theorem C39_until_partial (g1 g2 : Globals) (m1 m2 : Monitor) (n : ℕ) (T : Tr) (t d : ℚ)
    (h1 : TopReady n g1.B m1 T t) (i1 : BeginsInside .LINEAR g1.B m1.data m1.params t T)
    (h2 : TopReady n g2.B m2 T t) (i2 : BeginsInside .LINEAR g2.B m2.data m2.params t T)
    (hu : Untrimmed m1.params t t T)
    (hp : m1.params = m2.params) (ht : m1.data.map (·.head?) = m2.data.map (·.head?))
    (hd : SampledNear d m1.data m2.data m1.params T) :
    ∃ g1' m1' v1 g2' m2' v2, m1.evalRob1 g1 t = (g1', m1', .ok v1) ∧ m2.evalRob1 g2 t = (g2', m2', .ok v2) ∧
      |v1 - v2| ≤ d ∧ |m1'.lowerRob - m2'.lowerRob| ≤ d ∧ |m1'.upperRob - m2'.upperRob| ≤ d ∧
      (d < |v1| → (Sat .LINEAR m1.data m1.params T t ↔ Sat .LINEAR m2.data m2.params T t)) := by
  obtain ⟨g1', m1', v1, e1, r1, -, l1, u1⟩ := evalRob_top h1 hu i1
  obtain ⟨g2', m2', v2, e2, r2, -, l2, u2⟩ := evalRob_top h2 (hp ▸ hu) i2
  obtain ⟨hne, h0⟩ := firstRow h1.covers.1
  have hn := rob_near_outside t t h1.shape (atomsNear_outside h1.rows h2.rows (rowTimes ht) hne h0 h1.shape
    (outside_affine h1.shape h1.sampled) hd) t le_rfl le_rfl
  have s1 := rob_sat (ip := .LINEAR) (D := m1.data) (P := m1.params) (T := T) t
  have s2 := rob_sat (ip := .LINEAR) (D := m2.data) (P := m2.params) (T := T) t
  rw [r1, er_pos, er_neg'] at s1
  rw [r2, er_pos, er_neg'] at s2
  rw [r1, hp, r2] at hn
  simp only [Near, ← er_add, er_le] at hn
  have hle : |v1 - v2| ≤ d := abs_le.2 ⟨by linarith [hn.2], by linarith [hn.1]⟩
  refine ⟨g1', m1', v1, g2', m2', v2, e1, e2, hle, by rw [l1, l2]; exact hle, by rw [u1, u2]; exact hle,
    fun hlt => ?_⟩
  have hle' := abs_le.1 hle
  rcases abs_cases v1 with ⟨c1, c2⟩ | ⟨c1, c2⟩
  · exact iff_of_true (s1.1 (by linarith)) (s2.1 (by linarith))
  · exact iff_of_false (s1.2 (by linarith)) (s2.2 (by linarith))

example : ∃ g1' m1' v1 g2' m2' v2, (mon .LINEAR (xUy 0 2) exD).evalRob1 .init 0 = (g1', m1', .ok v1) ∧
    (mon .LINEAR (xUy 0 2) exD2).evalRob1 .init 0 = (g2', m2', .ok v2) ∧ |v1 - v2| ≤ 1 / 2 ∧
    |m1'.lowerRob - m2'.lowerRob| ≤ 1 / 2 ∧ |m1'.upperRob - m2'.upperRob| ≤ 1 / 2 ∧
      (1 / 2 < |v1| → (Sat .LINEAR exD [] (xUy 0 2) 0 ↔ Sat .LINEAR exD2 [] (xUy 0 2) 0)) :=
  C39_until_partial .init .init (mon .LINEAR (xUy 0 2) exD) (mon .LINEAR (xUy 0 2) exD2) 2 (xUy 0 2) 0 (1 / 2)
    (upUntil_ready _ (Or.inl rfl)).1 (upUntil_ready _ (Or.inl rfl)).2
    (upUntil_ready _ (Or.inr rfl)).1 (upUntil_ready _ (Or.inr rfl)).2 ⟨trivial, trivial⟩ rfl (by decide +kernel)
    ⟨show ∀ row ∈ exD.zip exD2, |margin .greater (rowExpr [] row.1 sx) (rowExpr [] row.1 (num 0)) -
        margin .greater (rowExpr [] row.2 sx) (rowExpr [] row.2 (num 0))| ≤ 1 / 2 by decide +kernel,
      show ∀ row ∈ exD.zip exD2, |margin .greater (rowExpr [] row.1 sy) (rowExpr [] row.1 (num 0)) -
        margin .greater (rowExpr [] row.2 sy) (rowExpr [] row.2 (num 0))| ≤ 1 / 2 by decide +kernel⟩

/-- C39 with `until` and PREVIOUS interpolation.  Missing: `until` below temporal operators, and the
formulas excluded by the conditions of C67. -/
theorem C39_until_previous_partial (g1 g2 : Globals) (m1 m2 : Monitor) (n : ℕ) (T : Tr) (t d : ℚ)
    (h1 : TopStepReady n g1.B m1 T t) (k1 : TopStepOk m1.data m1.params t T)
    (i1 : BeginsInside .PREVIOUS g1.B m1.data m1.params t T)
    (h2 : TopStepReady n g2.B m2 T t) (k2 : TopStepOk m2.data m2.params t T)
    (i2 : BeginsInside .PREVIOUS g2.B m2.data m2.params t T) (hu : Untrimmed m1.params t t T)
    (hp : m1.params = m2.params) (ht : m1.data.map (·.head?) = m2.data.map (·.head?))
    (hd : SampledNear d m1.data m2.data m1.params T) :
    ∃ g1' m1' v1 g2' m2' v2, m1.evalRob1 g1 t = (g1', m1', .ok v1) ∧ m2.evalRob1 g2 t = (g2', m2', .ok v2) ∧
      |v1 - v2| ≤ d ∧ |m1'.lowerRob - m2'.lowerRob| ≤ d ∧ |m1'.upperRob - m2'.upperRob| ≤ d ∧
      (d < |v1| → (Sat .PREVIOUS m1.data m1.params T t ↔ Sat .PREVIOUS m2.data m2.params T t)) := by
  obtain ⟨g1', m1', v1, e1, r1, -, l1, u1⟩ := evalRob_top_step h1 k1 hu i1
  obtain ⟨g2', m2', v2, e2, r2, -, l2, u2⟩ := evalRob_top_step h2 k2 (hp ▸ hu) i2
  obtain ⟨hne, h0⟩ := firstRow h1.covers.1
  have hn := rob_near_outside t t h1.shape (atomsNear_outside_previous (rowTimes ht) hne h0 h1.shape hd)
    t le_rfl le_rfl
  have s1 := rob_sat (ip := .PREVIOUS) (D := m1.data) (P := m1.params) (T := T) t
  have s2 := rob_sat (ip := .PREVIOUS) (D := m2.data) (P := m2.params) (T := T) t
  rw [r1, er_pos, er_neg'] at s1
  rw [r2, er_pos, er_neg'] at s2
  rw [r1, hp, r2] at hn
  simp only [Near, ← er_add, er_le] at hn
  have hle : |v1 - v2| ≤ d := abs_le.2 ⟨by linarith [hn.2], by linarith [hn.1]⟩
  refine ⟨g1', m1', v1, g2', m2', v2, e1, e2, hle, by rw [l1, l2]; exact hle, by rw [u1, u2]; exact hle,
    fun hlt => ?_⟩
  have hle' := abs_le.1 hle
  rcases abs_cases v1 with ⟨c1, c2⟩ | ⟨c1, c2⟩
  · exact iff_of_true (s1.1 (by linarith)) (s2.1 (by linarith))
  · exact iff_of_false (s1.2 (by linarith)) (s2.2 (by linarith))

/-- C75 with `until` and PREVIOUS interpolation.  Missing: `until` below temporal operators, and the
formulas excluded by the conditions of C67. -/
theorem C75_until_previous_partial (g1 g2 : Globals) (m1 m2 : Monitor) (n : ℕ) (T : Tr) (t : ℚ)
    (h1 : TopStepReady n g1.B m1 T t) (k1 : TopStepOk m1.data m1.params t T)
    (i1 : BeginsInside .PREVIOUS g1.B m1.data m1.params t T)
    (h2 : TopStepReady n g2.B m2 T t) (k2 : TopStepOk m2.data m2.params t T)
    (i2 : BeginsInside .PREVIOUS g2.B m2.data m2.params t T) (hu : Untrimmed m1.params t t T)
    (hp : m1.params = m2.params) (ht : m1.data.map (·.head?) = m2.data.map (·.head?))
    (hd : SampledUp m1.data m2.data m1.params true T) :
    ∃ g1' m1' v1 g2' m2' v2, m1.evalRob1 g1 t = (g1', m1', .ok v1) ∧ m2.evalRob1 g2 t = (g2', m2', .ok v2) ∧
      v1 ≤ v2 ∧ m1'.lowerRob ≤ m2'.lowerRob ∧ m1'.upperRob ≤ m2'.upperRob := by
  obtain ⟨g1', m1', v1, e1, r1, -, l1, u1⟩ := evalRob_top_step h1 k1 hu i1
  obtain ⟨g2', m2', v2, e2, r2, -, l2, u2⟩ := evalRob_top_step h2 k2 (hp ▸ hu) i2
  obtain ⟨hne, h0⟩ := firstRow h1.covers.1
  have := rob_up (atomsUp_outside_previous (rowTimes ht) hne h0 h1.shape hd) h1.shape.onward t le_rfl
  rw [r1, hp, r2] at this
  have := er_le.1 this
  exact ⟨g1', m1', v1, g2', m2', v2, e1, e2, this, by rw [l1, l2]; exact this, by rw [u1, u2]; exact this⟩

/-! ### A concrete pair of traces -/

/-- `crossD` with both signals raised by 1/2 in the second row. -/
def crossUpD : List (List ℚ) := [[0, 3, -1], [2, 3 / 2, 3 / 2], [3, -2, 4], [5, 0, 0]]

theorem crossUp_rows (D : List (List ℚ)) (hD : D = crossD ∨ D = crossUpD) : WellShaped 2 D := by
  rcases hD with rfl | rfl
  · exact crossD_rows
  · refine ⟨by decide +kernel, ?_⟩
    simp only [crossUpD, List.pairwise_cons, List.mem_cons, List.not_mem_nil, or_false]
    simp
    norm_num

theorem crossUp_ready (D : List (List ℚ)) (hD : D = crossD ∨ D = crossUpD) :
    TopStepReady 2 Globals.init.B (mon .PREVIOUS (xUy 1 4) D) (xUy 1 4) 0 ∧
    TopStepOk D [] 0 (xUy 1 4) ∧ BeginsInside .PREVIOUS Globals.init.B D [] 0 (xUy 1 4) := by
  have ix : IsExpr 2 sx := ⟨1, rfl, by decide, by decide⟩
  have iy : IsExpr 2 sy := ⟨2, rfl, by decide, by decide⟩
  have hh : ∀ row, D.head? = some row → rowTime row ≤ 0 := by
    intro row hrow
    rcases hD with rfl | rfl <;> simp only [crossD, crossUpD, List.head?_cons, Option.some.injEq] at hrow <;>
      subst hrow <;> decide +kernel
  have hne : D ≠ [] := by rcases hD with rfl | rfl <;> decide
  have hx := prev_abs (P := []) (K := 4) (n := 2) hh hne (k := .greater) (l := sx) (r := num 0) ⟨ix, trivial⟩
    (by rcases hD with rfl | rfl <;> decide +kernel)
  have hy := prev_abs (P := []) (K := 4) (n := 2) hh hne (k := .greater) (l := sy) (r := num 0) ⟨iy, trivial⟩
    (by rcases hD with rfl | rfl <;> decide +kernel)
  have B4 : (4 : ℚ) < Globals.init.B := by decide +kernel
  have wide : ∀ v : ℚ, -4 ≤ v ∧ v ≤ 4 → -Globals.init.B ≤ v ∧ v ≤ Globals.init.B := fun v hv =>
    ⟨by linarith [hv.1], by linarith [hv.2]⟩
  have inside : ∀ v : ℚ, -4 ≤ v ∧ v ≤ 4 → Inside Globals.init.B (er v) := by
    intro v hv
    refine ⟨lt_of_le_of_ne (er_le.2 (by linarith [hv.1])) fun e => ?_,
      lt_of_le_of_ne (er_le.2 (by linarith [hv.2])) fun e => ?_⟩
    · have := er_inj e; linarith [hv.1]
    · have := er_inj e; linarith [hv.2]
  have key : ∀ u : ℚ, 3 ≤ u → u ≤ 4 → trace .PREVIOUS D 2 u = 4 := by
    intro u h1 h2
    have hc : column D 2 = [(0, -1), (2, 1), (3, 4), (5, 0)] ∨ column D 2 = [(0, -1), (2, 3 / 2), (3, 4), (5, 0)] := by
      rcases hD with rfl | rfl
      · exact Or.inl (by decide +kernel)
      · exact Or.inr (by decide +kernel)
    simp only [trace]
    rcases hc with hc | hc <;> rw [hc] <;> simp only [interp] <;> split_ifs <;>
      first | rfl | (exfalso; linarith)
  refine ⟨⟨rfl, rfl, rfl, rfl, crossUp_rows D hD, ?_, by decide +kernel, ?_, le_rfl, ?_⟩,
    ⟨Or.inl ⟨trivial, trivial⟩, Or.inl ⟨trivial, trivial⟩, ?_⟩, inside _ (hx 0 le_rfl),
    inside _ (hy _ (by decide +kernel))⟩
  · exact ⟨(by decide +kernel : (0 : ℚ) ≤ 1), (by decide +kernel : (1 : ℚ) < 4), ⟨ix, trivial⟩, iy, trivial⟩
  · exact ⟨fun t h _ => wide _ (hx t h), fun t h _ => wide _ (hy t (le_trans (by decide +kernel : (0 : ℚ) ≤ 0 + 1) h))⟩
  · rcases hD with rfl | rfl <;> exact ⟨⟨_, 0, rfl, rfl, by decide +kernel⟩, ⟨_, 5, rfl, rfl, by decide +kernel⟩⟩
  · refine fun _ => ⟨3, by decide +kernel, by decide +kernel, fun t h1 h2 => ?_⟩
    have h2 : t ≤ 0 + 4 := h2
    show er (margin .greater (trace .PREVIOUS D 2 t) 0) = er (margin .greater (trace .PREVIOUS D 2 (0 + 4)) 0)
    rw [key t h1 (by linarith), key (0 + 4) (by norm_num) (by norm_num)]

example : ∃ g1' m1' v1 g2' m2' v2, (mon .PREVIOUS (xUy 1 4) crossD).evalRob1 .init 0 = (g1', m1', .ok v1) ∧
    (mon .PREVIOUS (xUy 1 4) crossUpD).evalRob1 .init 0 = (g2', m2', .ok v2) ∧ |v1 - v2| ≤ 1 / 2 ∧
    |m1'.lowerRob - m2'.lowerRob| ≤ 1 / 2 ∧ |m1'.upperRob - m2'.upperRob| ≤ 1 / 2 ∧
      (1 / 2 < |v1| → (Sat .PREVIOUS crossD [] (xUy 1 4) 0 ↔ Sat .PREVIOUS crossUpD [] (xUy 1 4) 0)) :=
  C39_until_previous_partial .init .init (mon .PREVIOUS (xUy 1 4) crossD) (mon .PREVIOUS (xUy 1 4) crossUpD) 2
    (xUy 1 4) 0 (1 / 2)
    (crossUp_ready _ (Or.inl rfl)).1 (crossUp_ready _ (Or.inl rfl)).2.1 (crossUp_ready _ (Or.inl rfl)).2.2
    (crossUp_ready _ (Or.inr rfl)).1 (crossUp_ready _ (Or.inr rfl)).2.1 (crossUp_ready _ (Or.inr rfl)).2.2
    ⟨trivial, trivial⟩ rfl (by decide +kernel)
    ⟨show ∀ row ∈ crossD.zip crossUpD, |margin .greater (rowExpr [] row.1 sx) (rowExpr [] row.1 (num 0)) -
        margin .greater (rowExpr [] row.2 sx) (rowExpr [] row.2 (num 0))| ≤ 1 / 2 by decide +kernel,
      show ∀ row ∈ crossD.zip crossUpD, |margin .greater (rowExpr [] row.1 sy) (rowExpr [] row.1 (num 0)) -
        margin .greater (rowExpr [] row.2 sy) (rowExpr [] row.2 (num 0))| ≤ 1 / 2 by decide +kernel⟩

example : ∃ g1' m1' v1 g2' m2' v2, (mon .PREVIOUS (xUy 1 4) crossD).evalRob1 .init 0 = (g1', m1', .ok v1) ∧
    (mon .PREVIOUS (xUy 1 4) crossUpD).evalRob1 .init 0 = (g2', m2', .ok v2) ∧
      v1 ≤ v2 ∧ m1'.lowerRob ≤ m2'.lowerRob ∧ m1'.upperRob ≤ m2'.upperRob :=
  C75_until_previous_partial .init .init (mon .PREVIOUS (xUy 1 4) crossD) (mon .PREVIOUS (xUy 1 4) crossUpD) 2
    (xUy 1 4) 0
    (crossUp_ready _ (Or.inl rfl)).1 (crossUp_ready _ (Or.inl rfl)).2.1 (crossUp_ready _ (Or.inl rfl)).2.2
    (crossUp_ready _ (Or.inr rfl)).1 (crossUp_ready _ (Or.inr rfl)).2.1 (crossUp_ready _ (Or.inr rfl)).2.2
    ⟨trivial, trivial⟩ rfl (by decide +kernel)
    ⟨show ∀ row ∈ crossD.zip crossUpD, margin .greater (rowExpr [] row.1 sx) (rowExpr [] row.1 (num 0)) ≤
        margin .greater (rowExpr [] row.2 sx) (rowExpr [] row.2 (num 0)) by decide +kernel,
      show ∀ row ∈ crossD.zip crossUpD, margin .greater (rowExpr [] row.1 sy) (rowExpr [] row.1 (num 0)) ≤
        margin .greater (rowExpr [] row.2 sy) (rowExpr [] row.2 (num 0)) by decide +kernel⟩

/-- The values are 1 and 3/2. -/
example : results (mon .PREVIOUS (xUy 1 4) crossD) 0 = (.ok 1, 1, 1) ∧
    results (mon .PREVIOUS (xUy 1 4) crossUpD) 0 = (.ok (3 / 2), 3 / 2, 3 / 2) := by decide +kernel

end Props
end STLRom
