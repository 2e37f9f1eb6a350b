import Verif.Props.UntilNest
import Verif.Proofs.UntilLin

/-!
# Property C80: formulas with `until` below temporal operators, with LINEAR interpolation
-/

namespace STLRom
namespace Props
open Signal Spec

/-- The full claim: with LINEAR interpolation, on a covering trace with all comparisons within `±B`, a
number returned by `eval_rob` is the robustness, also for formulas with `until`.  The known defects of
sums and products (C53) and of straight lines (C09, C12) are left out. -/
def C80_full : Prop := ∀ (g g' : Globals) (m m' : Monitor) (n : ℕ) (T : Tr) (t v : ℚ),
  m.formula = some T → m.sem = .SPACE → m.ip = .LINEAR → m.params.lookup "" = none →
  WellShaped n m.data → IsUntilFormula n m.params T → AtomsOk m.data m.params t t T →
  NoLongSlope .LINEAR m.data m.params t t T →
  AtomsWithin .LINEAR g.B m.data m.params t t T → 0 ≤ t → Covers m.data t (t + reach m.params T) →
  m.evalRob1 g t = (g', m', .ok v) → rob .LINEAR m.data m.params T t = er v

/-- C80 for formulas where every `until` compares two comparisons and stands below an `ev` or `alw` of
positive length, with a row in its last window, and where the signals of the operands of `and` and `or`
end together.  Missing: `until` over other formulas (C67 has it at the top), `until` not below an `ev` or
`alw` (false, `C80_false`; C67 has the cases where it holds), operands of `and` and `or` of different
lengths, and that a number is returned. -/
theorem C80_partial (g g' : Globals) (m m' : Monitor) (n : ℕ) (T : Tr) (t v : ℚ)
    (h : LinNestReady n g.B m T t) (hv : m.evalRob1 g t = (g', m', .ok v)) :
    rob .LINEAR m.data m.params T t = er v :=
  evalRob_lin h hv

/-- The sign of the returned number decides satisfaction for the same formulas. -/
theorem C38_linear_nested_partial (g g' : Globals) (m m' : Monitor) (n : ℕ) (T : Tr) (t v : ℚ)
    (h : LinNestReady n g.B m T t) (hv : m.evalRob1 g t = (g', m', .ok v)) :
    (0 < v → Sat .LINEAR m.data m.params T t) ∧ (v < 0 → ¬ Sat .LINEAR m.data m.params T t) := by
  have h3 := rob_sat (ip := .LINEAR) (D := m.data) (P := m.params) (T := T) t
  rw [evalRob_lin h hv, er_pos, er_neg'] at h3
  exact h3

/-! ### A concrete formula -/

/-- `alw_[0,1] (not (x > 0 until_[0,1] y > 0) => ev_[0,1] ((x > 0 until_[0,1] y > 0) and
(x > 0 until_[1,2] y > 0)))`. -/
def linU : Tr :=
  alwT 0 1 (.implies .init (.not .init (xUy 0 1)) (evT 0 1 (.and .init (xUy 0 1) (xUy 1 2))))

theorem linU_ready : LinNestReady 2 Globals.init.B (mon .LINEAR linU crossD) linU 0 := by
  have wx : ∀ u, (0 : ℚ) ≤ u → _ := fun u hu => trace_abs (P := []) (K := Globals.init.B) crossD_rows cross_head
    (by decide) (k := .greater) (l := sx) (r := num 0) ⟨trivial, trivial⟩ (by decide +kernel) u hu
  have wy : ∀ u, (0 : ℚ) ≤ u → _ := fun u hu => trace_abs (P := []) (K := Globals.init.B) crossD_rows cross_head
    (by decide) (k := .greater) (l := sy) (r := num 0) ⟨trivial, trivial⟩ (by decide +kernel) u hu
  have hx : IsUntilFormula 2 [] (above sx 0) := ⟨⟨1, rfl, by decide, by decide⟩, trivial⟩
  have hy : IsUntilFormula 2 [] (above sy 0) := ⟨⟨2, rfl, by decide, by decide⟩, trivial⟩
  have hu : ∀ a b : ℚ, 0 ≤ a → a < b → IsUntilFormula 2 [] (xUy a b) := fun a b c d => ⟨c, d, hx, hy⟩
  have hw : ∀ a b S E : ℚ, 0 ≤ a → 0 ≤ S → AtomsWithin .LINEAR Globals.init.B crossD [] S E (xUy a b) :=
    fun a b S E c d => ⟨fun u k _ => wx u (le_trans d k), fun u k _ => wy u (le_trans (add_nonneg d c) k)⟩
  have hk : ∀ a b S E : ℚ, S < E → S + b ≤ 2 → 2 ≤ E + b → LinNestOk crossD [] S E (xUy a b) :=
    fun a b S E c d e => ⟨c, trivial, trivial, Or.inl ⟨trivial, trivial⟩, Or.inl ⟨trivial, trivial⟩,
      [2, 1, 1], by simp [crossD], 2, rfl, d, e⟩
  have z0 : (0 : ℚ) ≤ 0 := le_rfl
  have z1 : (0 : ℚ) < 1 := by norm_num
  refine ⟨rfl, rfl, rfl, rfl, crossD_rows, ?_, ?_, ?_, le_rfl, ?_⟩
  · exact ⟨z0, z1.le, hu 0 1 z0 z1, z0, z1.le, hu 0 1 z0 z1, hu 1 2 z1.le (by norm_num)⟩
  · refine ⟨⟨hk 0 1 _ _ ?_ ?_ ?_, ⟨hk 0 1 _ _ ?_ ?_ ?_, hk 1 2 _ _ ?_ ?_ ?_, ?_⟩, fun _ _ => Or.inl trivial⟩,
      fun h => absurd h (lt_irrefl _)⟩ <;> decide +kernel
  · exact ⟨hw 0 1 _ _ z0 (show (0 : ℚ) ≤ 0 + 0 by norm_num), hw 0 1 _ _ z0 (show (0 : ℚ) ≤ 0 + 0 + 0 by norm_num),
      hw 1 2 _ _ z1.le (show (0 : ℚ) ≤ 0 + 0 + 0 by norm_num)⟩
  · exact ⟨⟨_, 0, rfl, rfl, le_rfl⟩, ⟨_, 5, rfl, rfl, by decide +kernel⟩⟩

theorem linU_runs : ((mon .LINEAR linU crossD).evalRob1 .init 0).2.2 = .ok 1 := by decide +kernel

example : rob .LINEAR crossD [] linU 0 = er 1 :=
  C80_partial .init _ (mon .LINEAR linU crossD) _ 2 linU 0 1 linU_ready (Prod.ext rfl (Prod.ext rfl linU_runs))

example : Sat .LINEAR crossD [] linU 0 :=
  (C38_linear_nested_partial .init _ (mon .LINEAR linU crossD) _ 2 linU 0 1 linU_ready
    (Prod.ext rfl (Prod.ext rfl linU_runs))).1 one_pos

/-! ### `until` over two `until`s, later than time 0 -/

theorem twoD_rows : WellShaped 2 twoD := by
  refine ⟨by decide +kernel, ?_⟩
  simp only [twoD, List.pairwise_cons, List.mem_cons, List.not_mem_nil, or_false]
  simp
  norm_num

/-- The claim is false for an `until` over two `until`s: their signals are extended back to time 0, and
`eval_rob(2)` returns a value of the outer `until` before time 2, 23/7.  The robustness is 4. -/
theorem C80_false : ¬ C80_full := by
  intro h
  have hh : ∀ row, twoD.head? = some row → rowTime row ≤ 0 := by
    intro row h
    simp only [twoD, List.head?_cons, Option.some.injEq] at h
    subst h
    decide +kernel
  have wx : ∀ u, (0 : ℚ) ≤ u → _ := fun u hu => trace_abs (P := []) (K := Globals.init.B) twoD_rows hh
    (by decide) (k := .greater) (l := sx) (r := num 0) ⟨trivial, trivial⟩ (by decide +kernel) u hu
  have wy : ∀ u, (0 : ℚ) ≤ u → _ := fun u hu => trace_abs (P := []) (K := Globals.init.B) twoD_rows hh
    (by decide) (k := .greater) (l := sy) (r := num 0) ⟨trivial, trivial⟩ (by decide +kernel) u hu
  have hx : IsUntilFormula 2 [] (above sx 0) := ⟨⟨1, rfl, by decide, by decide⟩, trivial⟩
  have hy : IsUntilFormula 2 [] (above sy 0) := ⟨⟨2, rfl, by decide, by decide⟩, trivial⟩
  have ok : ∀ S E : ℚ, AtomsOk twoD [] S E (above sx 0) ∧ AtomsOk twoD [] S E (above sy 0) := fun S E =>
    ⟨Or.inl ⟨trivial, trivial⟩, Or.inl ⟨trivial, trivial⟩⟩
  have z0 : (0 : ℚ) ≤ 0 := le_rfl
  have z1 : (0 : ℚ) < 1 := by norm_num
  have h1 := h .init _ (mon .LINEAR twoU twoD) _ 2 twoU 2 (23 / 7) rfl rfl rfl rfl twoD_rows
    ⟨z0, z1, ⟨z0, z1, hx, hx⟩, z0, z1, hx, hy⟩
    ⟨⟨(ok _ _).1, (ok _ _).1⟩, (ok _ _).1, (ok _ _).2⟩ ⟨⟨trivial, trivial⟩, trivial, trivial⟩
    ⟨⟨fun u k _ => wx u (le_trans (by decide +kernel) k), fun u k _ => wx u (le_trans (by decide +kernel) k)⟩,
      fun u k _ => wx u (le_trans (by decide +kernel) k), fun u k _ => wy u (le_trans (by decide +kernel) k)⟩
    (by norm_num)
    ⟨⟨_, 0, rfl, rfl, by norm_num⟩, ⟨_, 12, rfl, rfl, by decide +kernel⟩⟩
    (Prod.ext rfl (Prod.ext rfl (by decide +kernel)))
  have key : er 4 ≤ er (23 / 7) := by
    rw [← h1]
    have e5 : ∀ w : ℚ, 0 ≤ w → er 4 ≤ rob .LINEAR twoD [] (above sx 0) w := by
      intro w hw
      show er 4 ≤ er (margin .greater (trace .LINEAR twoD 1 w) 0)
      have hc : column twoD 1 = [(0, 5), (7 / 2, 5), (12, 5)] := by decide +kernel
      have e : trace .LINEAR twoD 1 w = 5 := by
        simp only [trace]
        rw [hc]
        simp only [interp]
        split_ifs <;> first | rfl | (exfalso; linarith) | norm_num
      rw [e]
      exact er_le.2 (by decide +kernel)
    have e4 : er 4 ≤ rob .LINEAR twoD [] (above sy 0) (7 / 2) := er_le.2 (by decide +kernel)
    refine le_iSup₂_of_le (5 / 2 : ℚ) ⟨show (2 : ℚ) + 0 ≤ 5 / 2 by norm_num, show (5 / 2 : ℚ) ≤ 2 + 1 by norm_num⟩
      (le_inf ?_ (le_iInf₂ fun w hw => ?_))
    · refine le_iSup₂_of_le (7 / 2 : ℚ) ⟨show (5 / 2 : ℚ) + 0 ≤ 7 / 2 by norm_num, show (7 / 2 : ℚ) ≤ 5 / 2 + 1 by norm_num⟩
        (le_inf e4 (le_iInf₂ fun w hw => e5 w (by linarith [hw.1])))
    · have h2 : (2 : ℚ) ≤ w := hw.1
      refine le_iSup₂_of_le w ⟨show w + 0 ≤ w by linarith, show w ≤ w + 1 by linarith⟩
        (le_inf (e5 w (by linarith)) (le_iInf₂ fun v hv => e5 v (by linarith [hv.1])))
  exact absurd (er_le.1 key) (by norm_num)

end Props
end STLRom
