import Verif.Props.Runs
import Verif.Props.NestFacts
import Verif.Props.Affine
import Verif.Proofs.Later

/-!
# C72 with `until`, and C39 and C75 for `until` below temporal operators with LINEAR interpolation
-/

namespace STLRom
namespace Props
open Signal Spec

/-! ### Later traces -/

/-- C72 with `until` outside the temporal operators and LINEAR interpolation: on a covering trace, moving every row and the
time of evaluation by `c` changes neither the number returned nor the bounds.  Missing: traces that do not cover the
formula (false, `C72_false`), and the formulas excluded by the conditions of C67. -/
theorem C72_until_partial (g : Globals) (m : Monitor) (n : ℕ) (T : Tr) (t c : ℚ) (h : TopReady n g.B m T t)
    (hu : Untrimmed m.params t t T) (hi : BeginsInside .LINEAR g.B m.data m.params t T) (h0 : 0 ≤ t + c) :
    let r := m.evalRob1 g t
    let r' := Monitor.evalRob1 g { m with data := moved c 1 m.data } (t + c)
    ∃ v, r.2.2 = .ok v ∧ r'.2.2 = .ok v ∧ r'.2.1.lowerRob = r.2.1.lowerRob ∧ r'.2.1.upperRob = r.2.1.upperRob := by
  intro r r'
  obtain ⟨g1, m1, v1, e1, r1, -, l1, u1⟩ := evalRob_top h hu hi
  obtain ⟨g2, m2, v2, e2, r2, -, l2, u2⟩ := evalRob_top (h.later h0) (untrimmed_later t t hu)
    (beginsInside_moved h.rows t h.shape.nest hi)
  have hv : v2 = v1 := by
    refine er_inj ?_
    rw [← r1, ← r2]
    exact rob_moved h.rows h.shape.nest t
  have k : r' = (g2, m2, .ok v2) := e2
  have k' : r = (g1, m1, .ok v1) := e1
  exact ⟨v1, by rw [k'], by rw [k, hv], by rw [k, k', l1, l2, hv], by rw [k, k', u1, u2, hv]⟩

/-- The same with PREVIOUS interpolation. -/
theorem C72_until_previous_partial (g : Globals) (m : Monitor) (n : ℕ) (T : Tr) (t c : ℚ) (h : TopStepReady n g.B m T t)
    (ho : TopStepOk m.data m.params t T) (hu : Untrimmed m.params t t T)
    (hi : BeginsInside .PREVIOUS g.B m.data m.params t T) (h0 : 0 ≤ t + c) :
    let r := m.evalRob1 g t
    let r' := Monitor.evalRob1 g { m with data := moved c 1 m.data } (t + c)
    ∃ v, r.2.2 = .ok v ∧ r'.2.2 = .ok v ∧ r'.2.1.lowerRob = r.2.1.lowerRob ∧ r'.2.1.upperRob = r.2.1.upperRob := by
  intro r r'
  obtain ⟨g1, m1, v1, e1, r1, -, l1, u1⟩ := evalRob_top_step h ho hu hi
  obtain ⟨g2, m2, v2, e2, r2, -, l2, u2⟩ := evalRob_top_step (h.later h0) (topStepOk_moved h.rows t h.shape.nest ho)
    (untrimmed_later t t hu) (beginsInside_moved h.rows t h.shape.nest hi)
  have hv : v2 = v1 := by
    refine er_inj ?_
    rw [← r1, ← r2]
    exact rob_moved h.rows h.shape.nest t
  have k : r' = (g2, m2, .ok v2) := e2
  have k' : r = (g1, m1, .ok v1) := e1
  exact ⟨v1, by rw [k'], by rw [k, hv], by rw [k, k', l1, l2, hv], by rw [k, k', u1, u2, hv]⟩

/-- C72 with `until` below temporal operators and LINEAR interpolation: the number returned stays the same.  Missing: the
bounds, and the formulas excluded by the conditions of C80 and C81. -/
theorem C72_nested_partial (g : Globals) (m : Monitor) (n : ℕ) (T : Tr) (t c : ℚ) (h : LinNestReady n g.B m T t)
    (hi : BoolInside .LINEAR g.B m.data m.params t T) (h0 : 0 ≤ t + c) :
    ∃ v, (m.evalRob1 g t).2.2 = .ok v ∧
      (Monitor.evalRob1 g { m with data := moved c 1 m.data } (t + c)).2.2 = .ok v := by
  obtain ⟨g1, m1, v1, e1, r1⟩ := evalRob_lin_runs h hi
  obtain ⟨g2, m2, v2, e2, r2⟩ := evalRob_lin_runs (h.later h0) (boolInside_moved h.rows t h.shape hi)
  have hv : v2 = v1 := by
    refine er_inj ?_
    rw [← r1, ← r2]
    exact rob_moved h.rows h.shape t
  have e2 : Monitor.evalRob1 g { m with data := moved c 1 m.data } (t + c) = (g2, m2, .ok v2) := e2
  exact ⟨v1, by rw [e1], by rw [e2, hv]⟩

/-- The same with PREVIOUS interpolation, for the formulas of C22 in which no `until` contains another one. -/
theorem C72_nested_previous_partial (g : Globals) (m : Monitor) (n : ℕ) (T : Tr) (t c : ℚ) (h : NestReady n g.B m T t)
    (hu : UntilPlain n m.params T) (hi : BoolInside .PREVIOUS g.B m.data m.params t T) (h0 : 0 ≤ t + c) :
    ∃ v, (m.evalRob1 g t).2.2 = .ok v ∧
      (Monitor.evalRob1 g { m with data := moved c 1 m.data } (t + c)).2.2 = .ok v := by
  obtain ⟨g1, m1, v1, e1, r1⟩ := evalRob_nest_runs h hu hi
  obtain ⟨g2, m2, v2, e2, r2⟩ := evalRob_nest_runs (h.later h0) hu (boolInside_moved h.rows t h.shape hi)
  have hv : v2 = v1 := by
    refine er_inj ?_
    rw [← r1, ← r2]
    exact rob_moved h.rows h.shape t
  have e2 : Monitor.evalRob1 g { m with data := moved c 1 m.data } (t + c) = (g2, m2, .ok v2) := e2
  exact ⟨v1, by rw [e1], by rw [e2, hv]⟩

/-! ### Two traces -/

/-- C39 for the formulas of C80: if no margin differs by more than `d` in any row, both evaluations return numbers, and these
differ by at most `d`.  Missing: the formulas excluded by `LinNestReady` and `BoolInside`. -/
theorem C39_linear_nested_partial (g1 g2 : Globals) (m1 m2 : Monitor) (n : ℕ) (T : Tr) (t d : ℚ)
    (h1 : LinNestReady n g1.B m1 T t) (i1 : BoolInside .LINEAR g1.B m1.data m1.params t T)
    (h2 : LinNestReady n g2.B m2 T t) (i2 : BoolInside .LINEAR g2.B m2.data m2.params t T)
    (hp : m1.params = m2.params) (ht : m1.data.map (·.head?) = m2.data.map (·.head?))
    (hd : SampledNear d m1.data m2.data m1.params T) :
    ∃ g1' m1' v1 g2' m2' v2, m1.evalRob1 g1 t = (g1', m1', .ok v1) ∧ m2.evalRob1 g2 t = (g2', m2', .ok v2) ∧
      |v1 - v2| ≤ d ∧ (d < |v1| → (Sat .LINEAR m1.data m1.params T t ↔ Sat .LINEAR m2.data m2.params T t)) := by
  obtain ⟨g1', m1', v1, e1, r1⟩ := evalRob_lin_runs h1 i1
  obtain ⟨g2', m2', v2, e2, r2⟩ := evalRob_lin_runs h2 i2
  obtain ⟨hne, h0⟩ := firstRow h1.covers.1
  have hn := rob_near_nest t t h1.shape (atomsNear_lin h1.rows h2.rows (rowTimes ht) hne t t h0 h1.shape
    (linNest_affine t t h1.shape h1.ok) hd) t le_rfl le_rfl
  have s1 := rob_sat (ip := .LINEAR) (D := m1.data) (P := m1.params) (T := T) t
  have s2 := rob_sat (ip := .LINEAR) (D := m2.data) (P := m2.params) (T := T) t
  rw [r1, er_pos, er_neg'] at s1
  rw [r2, er_pos, er_neg'] at s2
  rw [r1, hp, r2] at hn
  simp only [Near, ← er_add, er_le] at hn
  have hle : |v1 - v2| ≤ d := abs_le.2 ⟨by linarith [hn.2], by linarith [hn.1]⟩
  refine ⟨g1', m1', v1, g2', m2', v2, e1, e2, hle, fun hlt => ?_⟩
  have hle' := abs_le.1 hle
  rcases abs_cases v1 with ⟨c1, c2⟩ | ⟨c1, c2⟩
  · exact iff_of_true (s1.1 (by linarith)) (s2.1 (by linarith))
  · exact iff_of_false (s1.2 (by linarith)) (s2.2 (by linarith))

/-- C75 for the formulas of C80.  Missing: the formulas excluded by `LinNestReady` and `BoolInside`. -/
theorem C75_linear_nested_partial (g1 g2 : Globals) (m1 m2 : Monitor) (n : ℕ) (T : Tr) (t : ℚ)
    (h1 : LinNestReady n g1.B m1 T t) (i1 : BoolInside .LINEAR g1.B m1.data m1.params t T)
    (h2 : LinNestReady n g2.B m2 T t) (i2 : BoolInside .LINEAR g2.B m2.data m2.params t T)
    (hp : m1.params = m2.params) (ht : m1.data.map (·.head?) = m2.data.map (·.head?))
    (hd : SampledUp m1.data m2.data m1.params true T) :
    ∃ g1' m1' v1 g2' m2' v2, m1.evalRob1 g1 t = (g1', m1', .ok v1) ∧ m2.evalRob1 g2 t = (g2', m2', .ok v2) ∧
      v1 ≤ v2 := by
  obtain ⟨g1', m1', v1, e1, r1⟩ := evalRob_lin_runs h1 i1
  obtain ⟨g2', m2', v2, e2, r2⟩ := evalRob_lin_runs h2 i2
  obtain ⟨hne, h0⟩ := firstRow h1.covers.1
  have := rob_up (atomsUp_linear h1.rows h2.rows (rowTimes ht) hne h0 (linNest_affine t t h1.shape h1.ok) hd)
    h1.shape.onward t le_rfl
  rw [r1, hp, r2] at this
  exact ⟨g1', m1', v1, g2', m2', v2, e1, e2, er_le.1 this⟩

/-! ### Concrete cases -/

example : ∃ v, ((mon .LINEAR (xUy 0 2) exD).evalRob1 .init 0).2.2 = .ok v ∧
    ((mon .LINEAR (xUy 0 2) (moved 7 1 exD)).evalRob1 .init (0 + 7)).2.2 = .ok v := by
  obtain ⟨v, h1, h2, -⟩ := C72_until_partial .init (mon .LINEAR (xUy 0 2) exD) 2 (xUy 0 2) 0 7
    (upUntil_ready _ (Or.inl rfl)).1 ⟨trivial, trivial⟩ (upUntil_ready _ (Or.inl rfl)).2 (by norm_num)
  exact ⟨v, h1, h2⟩

example : ∃ v, ((mon .PREVIOUS (xUy 1 4) crossD).evalRob1 .init 0).2.2 = .ok v ∧
    ((mon .PREVIOUS (xUy 1 4) (moved 7 1 crossD)).evalRob1 .init (0 + 7)).2.2 = .ok v := by
  obtain ⟨v, h1, h2, -⟩ := C72_until_previous_partial .init (mon .PREVIOUS (xUy 1 4) crossD) 2 (xUy 1 4) 0 7
    (crossUp_ready _ (Or.inl rfl)).1 (crossUp_ready _ (Or.inl rfl)).2.1 ⟨trivial, trivial⟩
    (crossUp_ready _ (Or.inl rfl)).2.2 (by norm_num)
  exact ⟨v, h1, h2⟩

example : ∃ v, ((mon .LINEAR linU crossD).evalRob1 .init 0).2.2 = .ok v ∧
    ((mon .LINEAR linU (moved (1 / 3) 1 crossD)).evalRob1 .init (0 + 1 / 3)).2.2 = .ok v :=
  C72_nested_partial .init (mon .LINEAR linU crossD) 2 linU 0 (1 / 3) linU_ready linU_inside (by norm_num)

example : ∃ v, ((mon .PREVIOUS shiftU crossD).evalRob1 .init 0).2.2 = .ok v ∧
    ((mon .PREVIOUS shiftU (moved (1 / 3) 1 crossD)).evalRob1 .init (0 + 1 / 3)).2.2 = .ok v :=
  C72_nested_previous_partial .init (mon .PREVIOUS shiftU crossD) 2 shiftU 0 (1 / 3) shiftU_ready
    ⟨⟨⟨1, rfl, by decide, by decide⟩, trivial⟩, ⟨2, rfl, by decide, by decide⟩, trivial⟩ trivial (by norm_num)

theorem linUp_ready : LinNestReady 2 Globals.init.B (mon .LINEAR linU nestUpD) linU 0 ∧
    BoolInside .LINEAR Globals.init.B nestUpD [] 0 linU := by
  have hh : ∀ row, nestUpD.head? = some row → rowTime row ≤ 0 := by
    intro row hrow
    simp only [nestUpD, List.head?_cons, Option.some.injEq] at hrow
    subst hrow
    decide +kernel
  have hD := nestUp_rows nestUpD (Or.inr rfl)
  have wx : ∀ u, (0 : ℚ) ≤ u → _ := fun u hu => trace_abs (P := []) (K := 4) hD hh
    (by decide) (k := .greater) (l := sx) (r := num 0) ⟨trivial, trivial⟩ (by decide +kernel) u hu
  have wy : ∀ u, (0 : ℚ) ≤ u → _ := fun u hu => trace_abs (P := []) (K := 4) hD hh
    (by decide) (k := .greater) (l := sy) (r := num 0) ⟨trivial, trivial⟩ (by decide +kernel) u hu
  have h4 : (4 : ℚ) < Globals.init.B := by decide +kernel
  have lo : er (-Globals.init.B) < er (-4) :=
    lt_of_le_of_ne (er_le.2 (by linarith)) fun e => absurd (er_inj e) (by linarith)
  have hi : er 4 < er Globals.init.B := lt_of_le_of_ne (er_le.2 h4.le) fun e => absurd (er_inj e) h4.ne
  have bx : ∀ t : ℚ, 0 ≤ t → Inside Globals.init.B (rob .LINEAR nestUpD [] (above sx 0) t) := fun t h =>
    ⟨lo.trans_le (er_le.2 (wx t h).1), lt_of_le_of_lt (er_le.2 (wx t h).2) hi⟩
  have by' : ∀ t : ℚ, 0 ≤ t → Inside Globals.init.B (rob .LINEAR nestUpD [] (above sy 0) t) := fun t h =>
    ⟨lo.trans_le (er_le.2 (wy t h).1), lt_of_le_of_lt (er_le.2 (wy t h).2) hi⟩
  have wide : ∀ v : ℚ, -4 ≤ v ∧ v ≤ 4 → -Globals.init.B ≤ v ∧ v ≤ Globals.init.B := fun v hv =>
    ⟨by linarith [hv.1], by linarith [hv.2]⟩
  have hw : ∀ a b S E : ℚ, 0 ≤ a → 0 ≤ S → AtomsWithin .LINEAR Globals.init.B nestUpD [] S E (xUy a b) :=
    fun a b S E c d => ⟨fun u k _ => wide _ (wx u (le_trans d k)), fun u k _ => wide _ (wy u (le_trans (add_nonneg d c) k))⟩
  have hk : ∀ a b S E : ℚ, S < E → S + b ≤ 2 → 2 ≤ E + b → LinNestOk nestUpD [] S E (xUy a b) :=
    fun a b S E c d e => ⟨c, trivial, trivial, Or.inl ⟨trivial, trivial⟩, Or.inl ⟨trivial, trivial⟩,
      [2, 3 / 2, 3 / 2], by simp [nestUpD], 2, rfl, d, e⟩
  have z0 : (0 : ℚ) ≤ 0 := le_rfl
  have z1 : (0 : ℚ) < 1 := by norm_num
  refine ⟨⟨rfl, rfl, rfl, rfl, hD, linU_ready.shape, ?_, ?_, le_rfl, ?_⟩, ?_⟩
  · refine ⟨⟨hk 0 1 _ _ ?_ ?_ ?_, ⟨hk 0 1 _ _ ?_ ?_ ?_, hk 1 2 _ _ ?_ ?_ ?_, ?_⟩, fun _ _ => Or.inl trivial⟩,
      fun h => absurd h (lt_irrefl _)⟩ <;> decide +kernel
  · exact ⟨hw 0 1 _ _ z0 (show (0 : ℚ) ≤ 0 + 0 by norm_num), hw 0 1 _ _ z0 (show (0 : ℚ) ≤ 0 + 0 + 0 by norm_num),
      hw 1 2 _ _ z1.le (show (0 : ℚ) ≤ 0 + 0 + 0 by norm_num)⟩
  · exact ⟨⟨_, 0, rfl, rfl, le_rfl⟩, ⟨_, 5, rfl, rfl, by decide +kernel⟩⟩
  · refine ⟨trivial, ⟨trivial, trivial, ⟨trivial, trivial, bx _ ?_, by' _ ?_⟩, trivial, trivial, bx _ ?_, by' _ ?_⟩,
      trivial, trivial⟩ <;> decide +kernel

theorem near_up (k : Tr) (hk : k = above sx 0 ∨ k = above sy 0) : SampledNear (1 / 2) crossD nestUpD [] k ∧
    SampledUp crossD nestUpD [] true k := by
  rcases hk with rfl | rfl
  · exact ⟨show ∀ row ∈ crossD.zip nestUpD, |margin .greater (rowExpr [] row.1 sx) (rowExpr [] row.1 (num 0)) -
        margin .greater (rowExpr [] row.2 sx) (rowExpr [] row.2 (num 0))| ≤ 1 / 2 by decide +kernel,
      show ∀ row ∈ crossD.zip nestUpD, margin .greater (rowExpr [] row.1 sx) (rowExpr [] row.1 (num 0)) ≤
        margin .greater (rowExpr [] row.2 sx) (rowExpr [] row.2 (num 0)) by decide +kernel⟩
  · exact ⟨show ∀ row ∈ crossD.zip nestUpD, |margin .greater (rowExpr [] row.1 sy) (rowExpr [] row.1 (num 0)) -
        margin .greater (rowExpr [] row.2 sy) (rowExpr [] row.2 (num 0))| ≤ 1 / 2 by decide +kernel,
      show ∀ row ∈ crossD.zip nestUpD, margin .greater (rowExpr [] row.1 sy) (rowExpr [] row.1 (num 0)) ≤
        margin .greater (rowExpr [] row.2 sy) (rowExpr [] row.2 (num 0)) by decide +kernel⟩

example : ∃ g1' m1' v1 g2' m2' v2, (mon .LINEAR linU crossD).evalRob1 .init 0 = (g1', m1', .ok v1) ∧
    (mon .LINEAR linU nestUpD).evalRob1 .init 0 = (g2', m2', .ok v2) ∧ |v1 - v2| ≤ 1 / 2 ∧
      (1 / 2 < |v1| → (Sat .LINEAR crossD [] linU 0 ↔ Sat .LINEAR nestUpD [] linU 0)) :=
  have x := (near_up _ (Or.inl rfl)).1
  have y := (near_up _ (Or.inr rfl)).1
  C39_linear_nested_partial .init .init (mon .LINEAR linU crossD) (mon .LINEAR linU nestUpD) 2 linU 0 (1 / 2)
    linU_ready linU_inside linUp_ready.1 linUp_ready.2 rfl (by decide +kernel) ⟨⟨x, y⟩, ⟨x, y⟩, x, y⟩

example : ∃ g1' m1' v1 g2' m2' v2, (mon .LINEAR linU crossD).evalRob1 .init 0 = (g1', m1', .ok v1) ∧
    (mon .LINEAR linU nestUpD).evalRob1 .init 0 = (g2', m2', .ok v2) ∧ v1 ≤ v2 :=
  have x := (near_up _ (Or.inl rfl)).2
  have y := (near_up _ (Or.inr rfl)).2
  C75_linear_nested_partial .init .init (mon .LINEAR linU crossD) (mon .LINEAR linU nestUpD) 2 linU 0
    linU_ready linU_inside linUp_ready.1 linUp_ready.2 rfl (by decide +kernel) ⟨⟨x, y⟩, ⟨x, y⟩, x, y⟩

end Props
end STLRom
