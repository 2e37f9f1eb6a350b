import Verif.Proofs.FormulaLU
import Verif.Proofs.StlFacts

/-!
# Properties C20, C21, C28, C30, C38, C39, C53: what `eval_rob` computes on covering traces

All statements are about `eval_rob` of a monitor in SPACE mode with LINEAR interpolation, for
formulas without `until` (`Spec.Ready`).
-/

namespace STLRom
namespace Props
open Signal Spec

/-! ## Concrete monitors for the examples and witnesses -/

/-- The interval `[a, b]` with literal bounds. -/
def lit (a b : ℚ) : Ival := ⟨a, b, "", ""⟩

/-- The signal in column 1. -/
def sx : Tr := .sig .init "x" [("x", 1), ("y", 2)] none

/-- The signal in column 2. -/
def sy : Tr := .sig .init "y" [("x", 1), ("y", 2)] none

/-- A literal. -/
def num (c : ℚ) : Tr := .const .init "" c none

/-- `T > c`. -/
def above (T : Tr) (c : ℚ) : Tr := .atom .init .greater T (num c)

/-- `ev_[a,b] T`. -/
def evT (a b : ℚ) (T : Tr) : Tr := .ev .init (lit a b) T

/-- `alw_[a,b] T`. -/
def alwT (a b : ℚ) (T : Tr) : Tr := .alw .init (lit a b) T

/-- A monitor with signals `x`, `y`, formula `T` and rows `D`, without parameters. -/
def mon (ip : Interpol) (T : Tr) (D : List (List ℚ)) : Monitor :=
  ⟨D, [], [("x", 1), ("y", 2)], 0, 0, 0, 0, 0, some T, .SPACE, ip⟩

/-- `alw_[0,1] (x > 1 or ev_[0,2] y > 0)`. -/
def exF : Tr := alwT 0 1 (.or .init (above sx 1) (evT 0 2 (above sy 0)))

/-- Four rows. -/
def exD : List (List ℚ) := [[0, 0, 1], [1, 2, -1], [2, 0, 3], [4, 1, 0]]

/-- The monitor of the examples. -/
def exM : Monitor := mon .LINEAR exF exD

theorem exD_rows : WellShaped 2 exD := by
  refine ⟨by decide +kernel, ?_⟩
  simp only [exD, List.pairwise_cons, List.mem_cons, List.not_mem_nil, or_false]
  simp
  norm_num

theorem exM_ready : Ready .LINEAR 2 Globals.init.B exM exF 0 0 := by
  have hh : ∀ row, exD.head? = some row → rowTime row ≤ 0 := by
    intro row h
    simp only [exD, List.head?_cons, Option.some.injEq] at h
    subst h
    decide +kernel
  refine ⟨rfl, rfl, rfl, rfl, exD_rows, ?_, ?_, le_rfl, le_rfl, ?_⟩
  · refine ⟨by decide +kernel, by decide +kernel, ⟨⟨1, rfl, by decide, by decide⟩, trivial⟩,
      by decide +kernel, by decide +kernel, ⟨2, rfl, by decide, by decide⟩, trivial⟩
  · refine ⟨fun t h _ => ?_, fun t h _ => ?_⟩
    · exact trace_abs exD_rows hh (by decide) (k := .greater) (l := sx) (r := num 1)
        ⟨trivial, trivial⟩ (by decide +kernel) t (le_trans (by decide +kernel) h)
    · exact trace_abs exD_rows hh (by decide) (k := .greater) (l := sy) (r := num 0)
        ⟨trivial, trivial⟩ (by decide +kernel) t (le_trans (by decide +kernel) h)
  · exact ⟨⟨_, 0, rfl, rfl, by decide +kernel⟩, ⟨_, 4, rfl, rfl, by decide +kernel⟩⟩

/-- The operand `y > 0` of `alw` has a row at time 2, the end of the first window. -/
theorem exM_slope : NoLongSlope .LINEAR exM.data exM.params 0 0 exF :=
  ⟨⟨trivial, trivial, fun _ _ => Or.inl ⟨[2, 0, 3], by decide, 2, rfl, by decide +kernel,
    by decide +kernel⟩⟩, fun h => absurd h (by decide +kernel)⟩

theorem exM_trim : Untrimmed exM.params 0 0 exF :=
  ⟨trivial, trivial, fun _ => by decide +kernel⟩

/-! ## C20 the value at one time -/

/-- The full claim for the until-free fragment over atoms that compare signals and constants. -/
def C20_full : Prop := ∀ (g : Globals) (m : Monitor) (n : ℕ) (T : Tr) (t0 : ℚ),
  Ready .LINEAR n g.B m T t0 t0 → PlainAtoms T →
    ∃ g' m' v, m.evalRob1 g t0 = (g', m', .ok v) ∧ rob .LINEAR m.data m.params T t0 = er v

/-- C20 for formulas that meet `NoLongSlope` and `Untrimmed`.  Missing from the full claim:
operands that run as one sloped line without a sample over the end of the first window (where
the claim fails, `C20_false`), and `ev` directly over an atom with a window shorter than the evaluation interval
(`C20_ret_partial`). -/
theorem C20_partial (g : Globals) (m : Monitor) (n : ℕ) (T : Tr) (t0 : ℚ)
    (h : Ready .LINEAR n g.B m T t0 t0) (ha : AtomsOk m.data m.params t0 t0 T)
    (hn : NoLongSlope .LINEAR m.data m.params t0 t0 T) (hu : Untrimmed m.params t0 t0 T) :
    ∃ g' m' v, m.evalRob1 g t0 = (g', m', .ok v) ∧ rob .LINEAR m.data m.params T t0 = er v := by
  obtain ⟨g', m', v, z, h1, _, _, _, _, h2, _⟩ := evalRob_exact h ha hn hu
  exact ⟨g', m', v, h1, h2⟩

/-- C20 without the condition on short windows: whatever number is returned is right.
Missing from the full claim: operands that run as one sloped line without a sample over the end
of the first window, and that a number is returned. -/
theorem C20_ret_partial (g g' : Globals) (m m' : Monitor) (n : ℕ) (T : Tr) (t0 v : ℚ)
    (h : Ready .LINEAR n g.B m T t0 t0) (ha : AtomsOk m.data m.params t0 t0 T)
    (hn : NoLongSlope .LINEAR m.data m.params t0 t0 T)
    (hv : m.evalRob1 g t0 = (g', m', .ok v)) : rob .LINEAR m.data m.params T t0 = er v :=
  evalRob_exact_ret h ha hn hv

theorem exM_plain : PlainAtoms exF := ⟨⟨trivial, trivial⟩, trivial, trivial⟩

theorem exM_ok : AtomsOk exM.data exM.params 0 0 exF :=
  ⟨Or.inl ⟨trivial, trivial⟩, Or.inl ⟨trivial, trivial⟩⟩

example : ∃ g' m' v, exM.evalRob1 .init 0 = (g', m', .ok v) ∧
    rob .LINEAR exM.data exM.params exF 0 = er v :=
  C20_partial _ _ 2 _ _ exM_ready exM_ok exM_slope exM_trim

example : rob .LINEAR exM.data exM.params exF 0 = er 3 :=
  C20_ret_partial .init (exM.evalRob1 .init 0).1 _ (exM.evalRob1 .init 0).2.1 2 _ _ _ exM_ready
    exM_ok exM_slope (Prod.ext rfl (Prod.ext rfl (by decide +kernel)))

/-- `alw_[0,2] ((ev_[0,3] x > 0) or y > 0)`. -/
def badF : Tr := alwT 0 2 (.or .init (evT 0 3 (above sx 0)) (above sy 0))

/-- Two rows: `x = t`, `y = 8 - 5 t`. -/
def badD : List (List ℚ) := [[0, 0, 8], [10, 10, -42]]

theorem badD_rows : WellShaped 2 badD := by
  refine ⟨by decide +kernel, ?_⟩
  simp only [badD, List.pairwise_cons, List.mem_cons, List.not_mem_nil, or_false]
  simp

theorem badD_head : ∀ row, badD.head? = some row → rowTime row ≤ 0 := by
  intro row h
  simp only [badD, List.head?_cons, Option.some.injEq] at h
  subst h
  decide +kernel

theorem badD_x (t : ℚ) (h0 : 0 ≤ t) (h : t < 10) : rob .LINEAR badD [] (above sx 0) t = er t := by
  have e : column badD 1 = [(0, 0), (10, 10)] := by decide +kernel
  simp only [above, rob, sx, num, expr, trace, margin, number]
  rw [show (List.lookup "x" [("x", 1), ("y", 2)]).getD 0 = 1 from rfl]
  congr 1
  rw [e]
  simp only [interp, if_neg (not_lt.2 h0), if_pos h]
  simp

theorem badD_y (t : ℚ) (h0 : 0 ≤ t) (h : t < 10) :
    rob .LINEAR badD [] (above sy 0) t = er (8 - 5 * t) := by
  have e : column badD 2 = [(0, 8), (10, -42)] := by decide +kernel
  simp only [above, rob, sy, num, expr, trace, margin, number]
  rw [show (List.lookup "y" [("x", 1), ("y", 2)]).getD 0 = 2 from rfl]
  congr 1
  rw [e]
  simp only [interp, if_neg (not_lt.2 h0), if_pos h]
  simp
  ring

theorem badF_ready : Ready .LINEAR 2 Globals.init.B (mon .LINEAR badF badD) badF 0 0 := by
  refine ⟨rfl, rfl, rfl, rfl, badD_rows, ?_, ?_, le_rfl, le_rfl, ?_⟩
  · refine ⟨by decide +kernel, by decide +kernel, ⟨by decide +kernel, by decide +kernel,
      ⟨1, rfl, by decide, by decide⟩, trivial⟩, ⟨2, rfl, by decide, by decide⟩, trivial⟩
  · refine ⟨fun t h _ => ?_, fun t h _ => ?_⟩
    · exact trace_abs badD_rows badD_head (by decide) (k := .greater) (l := sx) (r := num 0)
        ⟨trivial, trivial⟩ (by decide +kernel) t (le_trans (by decide +kernel) h)
    · exact trace_abs badD_rows badD_head (by decide) (k := .greater) (l := sy) (r := num 0)
        ⟨trivial, trivial⟩ (by decide +kernel) t (le_trans (by decide +kernel) h)
  · exact ⟨⟨_, 0, rfl, rfl, by decide +kernel⟩, ⟨_, 10, rfl, rfl, by decide +kernel⟩⟩

/-- The true robustness is at least 23/6. -/
theorem badF_rob : er (23 / 6) ≤ rob .LINEAR badD [] badF 0 := by
  have b0 : ∀ a b : ℚ, bound [] (lit a b).beginStr (lit a b).begin = a := fun _ _ => rfl
  have b1 : ∀ a b : ℚ, bound [] (lit a b).stopStr (lit a b).stop = b := fun _ _ => rfl
  refine le_iInf₂ fun t ht => ?_
  rw [b0, b1, Set.mem_Icc] at ht
  by_cases h : t < 5 / 6
  · refine le_trans ?_ le_sup_right
    rw [badD_y t (by linarith) (by linarith), er_le]
    linarith
  · refine le_trans ?_ le_sup_left
    refine le_iSup₂_of_le (t + 3) ?_ ?_
    · rw [b0, b1, Set.mem_Icc]; constructor <;> linarith
    · rw [badD_x (t + 3) (by linarith) (by linarith), er_le]
      linarith

/-- C20 is false: `alw_[0,2] ((ev_[0,3] x > 0) or y > 0)` on `x = t`, `y = 8 - 5t` has
robustness 23/6, `eval_rob` returns 3. -/
theorem C20_false : ¬ C20_full := by
  intro h
  obtain ⟨g', m', v, h1, h2⟩ := h .init _ 2 badF 0 badF_ready
    ⟨⟨trivial, trivial⟩, trivial, trivial⟩
  have h3 : ((mon .LINEAR badF badD).evalRob1 .init 0).2.2 = .ok 3 := by decide +kernel
  rw [h1] at h3
  obtain rfl : v = 3 := by simpa using h3
  have h4 := badF_rob
  rw [show rob .LINEAR badD [] badF 0 = er 3 from h2, er_le] at h4
  norm_num at h4

/-! ## C21 the whole signal -/

/-- After `eval_rob(s, e)` the number returned and the signal of `get_signal` are those of the
semantics. -/
def SignalRight (g : Globals) (m : Monitor) (T : Tr) (s e : ℚ) : Prop :=
  ∃ g' m' v z, m.evalRob g s e = (g', m', .ok v) ∧ m'.getSignal = .ok z ∧
    z.beginTime = s ∧ z.endTime = e ∧ value z s = some v ∧
    ∀ t, s ≤ t → t ≤ e → ∃ w, value z t = some w ∧ rob .LINEAR m.data m.params T t = er w

/-- The full claim for the until-free fragment over atoms that compare signals and constants. -/
def C21_full : Prop := ∀ (g : Globals) (m : Monitor) (n : ℕ) (T : Tr) (s e : ℚ),
  Ready .LINEAR n g.B m T s e → PlainAtoms T → SignalRight g m T s e

/-- C21 for formulas that meet `NoLongSlope` and `Untrimmed`.  Missing: see `C20_partial`. -/
theorem C21_partial (g : Globals) (m : Monitor) (n : ℕ) (T : Tr) (s e : ℚ)
    (h : Ready .LINEAR n g.B m T s e) (ha : AtomsOk m.data m.params s e T)
    (hn : NoLongSlope .LINEAR m.data m.params s e T) (hu : Untrimmed m.params s e T) :
    SignalRight g m T s e := by
  obtain ⟨g', m', v, z, h1, _, _, _, h2, h3, h4, h5⟩ := evalRob_exact h ha hn hu
  have hv : ∀ t, s ≤ t → t ≤ e → ∃ w, value z t = some w ∧
      rob .LINEAR m.data m.params T t = er w := fun t a b =>
    ⟨_, h4.wf.value (by rw [h4.b]; exact a), h5 t a b⟩
  refine ⟨g', m', v, z, h1, h2, h4.b, h4.e, ?_, hv⟩
  obtain ⟨w, h6, h7⟩ := hv s le_rfl h.stop
  rw [h3] at h7
  rw [h6, er_inj h7]

/-- `ev_[0,3] x > 0` on `[0,2]`. -/
theorem badE_ready : Ready .LINEAR 2 Globals.init.B (mon .LINEAR (evT 0 3 (above sx 0)) badD)
    (evT 0 3 (above sx 0)) 0 2 := by
  refine ⟨rfl, rfl, rfl, rfl, badD_rows, ?_, ?_, le_rfl, by decide +kernel, ?_⟩
  · refine ⟨by decide +kernel, by decide +kernel, ⟨1, rfl, by decide, by decide⟩, trivial⟩
  · exact fun t h _ => trace_abs badD_rows badD_head (by decide) (k := .greater) (l := sx)
      (r := num 0) ⟨trivial, trivial⟩ (by decide +kernel) t (le_trans (by decide +kernel) h)
  · exact ⟨⟨_, 0, rfl, rfl, by decide +kernel⟩, ⟨_, 10, rfl, rfl, by decide +kernel⟩⟩

/-- C21 is false: for `ev_[0,3] x > 0` on `x = t`, evaluated on `[0,2]`, the signal has the
value 3 at time 1, where the robustness is 4. -/
theorem C21_false : ¬ C21_full := by
  intro h
  obtain ⟨g', m', v, z, h1, h2, _, _, _, h5⟩ := h .init _ 2 _ 0 2 badE_ready ⟨trivial, trivial⟩
  obtain ⟨w, h6, h7⟩ := h5 1 (by norm_num) (by norm_num)
  have h3 : ((mon .LINEAR (evT 0 3 (above sx 0)) badD).evalRob .init 0 2).2.1.getSignal =
      .ok ⟨[⟨0, 3, 0⟩, ⟨2, 5, 0⟩], 0, 2⟩ := by decide +kernel
  rw [h1] at h3
  simp only at h3
  rw [h2, Except.ok.injEq] at h3
  subst h3
  have h8 : w = 3 := by
    rw [show value ⟨[⟨0, 3, 0⟩, ⟨2, 5, 0⟩], 0, 2⟩ 1 = some 3 from by decide +kernel] at h6
    exact (Option.some.inj h6).symm
  have h9 : er 4 ≤ rob .LINEAR badD [] (evT 0 3 (above sx 0)) 1 := by
    refine le_iSup₂_of_le 4 ?_ ?_
    · rw [show bound [] (lit 0 3).beginStr (lit 0 3).begin = 0 from rfl,
        show bound [] (lit 0 3).stopStr (lit 0 3).stop = 3 from rfl, Set.mem_Icc]
      norm_num
    · rw [badD_x 4 (by norm_num) (by norm_num)]
  rw [show rob .LINEAR badD [] (evT 0 3 (above sx 0)) 1 = er w from h7, h8, er_le] at h9
  norm_num at h9

/-- `(x > 1) or ev_[0,2] y > 0` on `[0,1]`. -/
def exG : Tr := .or .init (above sx 1) (evT 0 2 (above sy 0))

theorem exG_ready : Ready .LINEAR 2 Globals.init.B (mon .LINEAR exG exD) exG 0 1 := by
  have h := exM_ready
  refine ⟨rfl, rfl, rfl, rfl, exD_rows, h.shape.2.2, ?_, le_rfl, by decide +kernel, ?_⟩
  · have := h.within
    simpa [exM, mon, exF, exG, alwT, AtomsWithin, lit, bound] using this
  · exact ⟨⟨_, 0, rfl, rfl, by decide +kernel⟩, ⟨_, 4, rfl, rfl, by decide +kernel⟩⟩

theorem exG_slope : NoLongSlope .LINEAR exD [] 0 1 exG := by
  have := exM_slope.1
  simpa [exM, mon, exG, exF, alwT, lit, bound] using this

example : SignalRight .init (mon .LINEAR exG exD) exG 0 1 :=
  C21_partial _ _ 2 _ _ _ exG_ready ⟨Or.inl ⟨trivial, trivial⟩, Or.inl ⟨trivial, trivial⟩⟩
    exG_slope ⟨trivial, trivial, fun _ => by decide +kernel⟩

/-! ## C28 the bounds on a covering trace -/

/-- The full claim for the until-free fragment over atoms that compare signals and constants:
after an evaluation that returned `v` both bounds are `v`. -/
def C28_full : Prop := ∀ (g g' : Globals) (m m' : Monitor) (n : ℕ) (T : Tr) (s e v : ℚ),
  Ready .LINEAR n g.B m T s e → PlainAtoms T → m.evalRob g s e = (g', m', .ok v) →
    m'.rob = v ∧ m'.lowerRob = v ∧ m'.upperRob = v

/-- C28 for formulas that meet `NoLongSlope` and `Untrimmed`.  Missing: the others, for which
it fails (`C28_false`). -/
theorem C28_partial (g : Globals) (m : Monitor) (n : ℕ) (T : Tr) (s e : ℚ)
    (h : Ready .LINEAR n g.B m T s e) (ha : AtomsOk m.data m.params s e T)
    (hn : NoLongSlope .LINEAR m.data m.params s e T) (hu : Untrimmed m.params s e T) :
    ∃ g' m' v, m.evalRob g s e = (g', m', .ok v) ∧
      m'.rob = v ∧ m'.lowerRob = v ∧ m'.upperRob = v := by
  obtain ⟨g', m', v, z, h1, h2, h3, h4, _⟩ := evalRob_exact h ha hn hu
  exact ⟨g', m', v, h1, h2, h3, h4⟩

example : ∃ g' m' v, exM.evalRob .init 0 0 = (g', m', .ok v) ∧
    m'.rob = v ∧ m'.lowerRob = v ∧ m'.upperRob = v :=
  C28_partial _ _ 2 _ _ _ exM_ready exM_ok exM_slope exM_trim

/-- `alw_[0,4] ev_[0,1] x > 0`. -/
def cutF : Tr := alwT 0 4 (evT 0 1 (above sx 0))

/-- `x` is -1 up to time 2 and 3 from time 3 on. -/
def cutD : List (List ℚ) := [[0, -1, 0], [1, -1, 0], [2, -1, 0], [3, 3, 0], [4, 3, 0], [5, 3, 0]]

theorem cutF_ready : Ready .LINEAR 2 Globals.init.B (mon .LINEAR cutF cutD) cutF 0 0 := by
  have hr : WellShaped 2 cutD := by
    refine ⟨by decide +kernel, ?_⟩
    simp only [cutD, List.pairwise_cons, List.mem_cons, List.not_mem_nil, or_false]
    simp
    norm_num
  have hh : ∀ row, cutD.head? = some row → rowTime row ≤ 0 := by
    intro row h
    simp only [cutD, List.head?_cons, Option.some.injEq] at h
    subst h
    decide +kernel
  refine ⟨rfl, rfl, rfl, rfl, hr, ?_, ?_, le_rfl, le_rfl, ?_⟩
  · refine ⟨by decide +kernel, by decide +kernel, by decide +kernel, by decide +kernel,
      ⟨1, rfl, by decide, by decide⟩, trivial⟩
  · exact fun t h _ => trace_abs hr hh (by decide) (k := .greater) (l := sx)
      (r := num 0) ⟨trivial, trivial⟩ (by decide +kernel) t (le_trans (by decide +kernel) h)
  · exact ⟨⟨_, 0, rfl, rfl, by decide +kernel⟩, ⟨_, 5, rfl, rfl, by decide +kernel⟩⟩

/-- C28 is false: for `alw_[0,4] ev_[0,1] x > 0` the robustness is -1 and both bounds are 3. -/
theorem C28_false : ¬ C28_full := by
  intro h
  have h3 := (h .init ((mon .LINEAR cutF cutD).evalRob .init 0 0).1 _
    ((mon .LINEAR cutF cutD).evalRob .init 0 0).2.1 2 cutF 0 0 (-1) cutF_ready
    ⟨trivial, trivial⟩ (Prod.ext rfl (Prod.ext rfl (by decide +kernel)))).2.1
  have h4 : ((mon .LINEAR cutF cutD).evalRob .init 0 0).2.1.lowerRob = 3 := by decide +kernel
  rw [h4] at h3
  norm_num at h3

/-! ## C38 the sign decides satisfaction -/

/-- C38 for formulas that meet `NoLongSlope`, for every number that `eval_rob` returns.
Missing from the full claim: the other formulas; there the sign may be wrong (`C38_false`). -/
theorem C38_partial (g g' : Globals) (m m' : Monitor) (n : ℕ) (T : Tr) (t0 v : ℚ)
    (h : Ready .LINEAR n g.B m T t0 t0) (ha : AtomsOk m.data m.params t0 t0 T)
    (hn : NoLongSlope .LINEAR m.data m.params t0 t0 T)
    (hv : m.evalRob1 g t0 = (g', m', .ok v)) :
    (0 < v → Sat .LINEAR m.data m.params T t0) ∧ (v < 0 → ¬ Sat .LINEAR m.data m.params T t0) := by
  have h1 := evalRob_exact_ret h ha hn hv
  have h2 := rob_sat (ip := .LINEAR) (D := m.data) (P := m.params) (T := T) t0
  rw [h1, er_pos, er_neg'] at h2
  exact h2

example : Sat .LINEAR exM.data exM.params exF 0 :=
  (C38_partial .init (exM.evalRob1 .init 0).1 _ (exM.evalRob1 .init 0).2.1 2 _ _ 3 exM_ready
    exM_ok exM_slope (Prod.ext rfl (Prod.ext rfl (by decide +kernel)))).1 (by norm_num)

/-- The full claim for the until-free fragment over atoms that compare signals and constants. -/
def C38_full : Prop := ∀ (g g' : Globals) (m m' : Monitor) (n : ℕ) (T : Tr) (t0 v : ℚ),
  Ready .LINEAR n g.B m T t0 t0 → PlainAtoms T → m.evalRob1 g t0 = (g', m', .ok v) →
    (0 < v → Sat .LINEAR m.data m.params T t0) ∧ (v < 0 → ¬ Sat .LINEAR m.data m.params T t0)

/-- `alw_[0,2] ((ev_[0,3] x > 7/2) or y > 7/2)`. -/
def signF : Tr := alwT 0 2 (.or .init (evT 0 3 (above sx (7 / 2))) (above sy (7 / 2)))

theorem signF_ready : Ready .LINEAR 2 Globals.init.B (mon .LINEAR signF badD) signF 0 0 := by
  refine ⟨rfl, rfl, rfl, rfl, badD_rows, ?_, ?_, le_rfl, le_rfl, ?_⟩
  · refine ⟨by decide +kernel, by decide +kernel, ⟨by decide +kernel, by decide +kernel,
      ⟨1, rfl, by decide, by decide⟩, trivial⟩, ⟨2, rfl, by decide, by decide⟩, trivial⟩
  · refine ⟨fun t h _ => ?_, fun t h _ => ?_⟩
    · exact trace_abs badD_rows badD_head (by decide) (k := .greater) (l := sx) (r := num (7 / 2))
        ⟨trivial, trivial⟩ (by decide +kernel) t (le_trans (by decide +kernel) h)
    · exact trace_abs badD_rows badD_head (by decide) (k := .greater) (l := sy) (r := num (7 / 2))
        ⟨trivial, trivial⟩ (by decide +kernel) t (le_trans (by decide +kernel) h)
  · exact ⟨⟨_, 0, rfl, rfl, by decide +kernel⟩, ⟨_, 10, rfl, rfl, by decide +kernel⟩⟩

/-- C38 is false: `alw_[0,2] ((ev_[0,3] x > 7/2) or y > 7/2)` is satisfied on `x = t`,
`y = 8 - 5t`, `eval_rob` returns -1/2. -/
theorem C38_false : ¬ C38_full := by
  intro h
  have h1 := (h .init ((mon .LINEAR signF badD).evalRob1 .init 0).1 _
    ((mon .LINEAR signF badD).evalRob1 .init 0).2.1 2 signF 0 (-1 / 2) signF_ready
    ⟨⟨trivial, trivial⟩, trivial, trivial⟩ (Prod.ext rfl (Prod.ext rfl (by decide +kernel)))).2
    (by norm_num)
  apply h1
  have ex : ∀ t : ℚ, 0 ≤ t → t < 10 → expr .LINEAR badD [] sx t = t := by
    intro t a b
    have := badD_x t a b
    simp only [above, rob, num, margin, expr, number, if_true, sub_zero] at this
    exact er_inj this
  have ey : ∀ t : ℚ, 0 ≤ t → t < 10 → expr .LINEAR badD [] sy t = 8 - 5 * t := by
    intro t a b
    have := badD_y t a b
    simp only [above, rob, num, margin, expr, number, if_true, sub_zero] at this
    exact er_inj this
  have b0 : ∀ a b : ℚ, bound [] (lit a b).beginStr (lit a b).begin = a := fun _ _ => rfl
  have b1 : ∀ a b : ℚ, bound [] (lit a b).stopStr (lit a b).stop = b := fun _ _ => rfl
  intro t ht1 ht2
  rw [show (mon .LINEAR signF badD).params = [] from rfl] at *
  rw [b0] at ht1
  rw [b1] at ht2
  by_cases hc : t < 5 / 6
  · right
    show expr .LINEAR badD [] sy t > 7 / 2
    rw [ey t (by linarith) (by linarith)]
    linarith
  · left
    refine ⟨t + 3, by rw [b0]; linarith, by rw [b1], ?_⟩
    show expr .LINEAR badD [] sx (t + 3) > 7 / 2
    rw [ex (t + 3) (by linarith) (by linarith)]
    linarith

/-! ## C39 robustness is 1-Lipschitz -/

/-- The full claim for the until-free fragment over atoms that compare signals and constants. -/
def C39_full : Prop := ∀ (g1 g1' g2 g2' : Globals) (m1 m1' m2 m2' : Monitor) (n : ℕ) (T : Tr)
    (t0 d v1 v2 : ℚ),
  Ready .LINEAR n g1.B m1 T t0 t0 → Ready .LINEAR n g2.B m2 T t0 t0 → PlainAtoms T →
    m1.params = m2.params → m1.data.map (·.head?) = m2.data.map (·.head?) →
    SampledNear d m1.data m2.data m1.params T →
    m1.evalRob1 g1 t0 = (g1', m1', .ok v1) → m2.evalRob1 g2 t0 = (g2', m2', .ok v2) →
    |v1 - v2| ≤ d

/-- C39 for formulas that meet `NoLongSlope` on both traces.  Missing from the full claim: the
other formulas (for some of which it fails, `C39_false`), and that numbers are returned. -/
theorem C39_partial (g1 g1' g2 g2' : Globals) (m1 m1' m2 m2' : Monitor) (n : ℕ) (T : Tr)
    (t0 d v1 v2 : ℚ)
    (h1 : Ready .LINEAR n g1.B m1 T t0 t0) (a1 : AtomsOk m1.data m1.params t0 t0 T)
    (n1 : NoLongSlope .LINEAR m1.data m1.params t0 t0 T)
    (h2 : Ready .LINEAR n g2.B m2 T t0 t0) (a2 : AtomsOk m2.data m2.params t0 t0 T)
    (n2 : NoLongSlope .LINEAR m2.data m2.params t0 t0 T)
    (hp : m1.params = m2.params)
    (ht : m1.data.map (·.head?) = m2.data.map (·.head?))
    (hd : SampledNear d m1.data m2.data m1.params T)
    (e1 : m1.evalRob1 g1 t0 = (g1', m1', .ok v1)) (e2 : m2.evalRob1 g2 t0 = (g2', m2', .ok v2)) :
    |v1 - v2| ≤ d ∧
    (d < |v1| → (Sat .LINEAR m1.data m1.params T t0 ↔ Sat .LINEAR m2.data m2.params T t0)) := by
  have r1 := evalRob_exact_ret h1 a1 n1 e1
  have r2 := evalRob_exact_ret h2 a2 n2 e2
  have hne : m1.data ≠ [] := by
    obtain ⟨row, t, h, _⟩ := h1.covers.1
    rintro h'
    rw [h'] at h
    simp at h
  have ht' : m1.data.map rowTime = m2.data.map rowTime := by
    have e : ∀ D : List (List ℚ), D.map rowTime = (D.map (·.head?)).map (·.getD 0) := by
      intro D
      rw [List.map_map]
      refine List.map_congr_left fun row _ => ?_
      cases row <;> rfl
    rw [e, e, ht]
  have hs : ∀ row, m1.data.head? = some row → rowTime row ≤ t0 := by
    intro row hr
    obtain ⟨row', t, h, h', h''⟩ := h1.covers.1
    rw [hr] at h
    obtain rfl := Option.some.inj h
    cases row <;> simp_all [rowTime]
  have hn := rob_near t0 t0 (atomsNear_of_sampled h1.rows h2.rows ht' t0 t0 hs hne h1.shape
    (atomsOk_affine _ _ h1.shape a1) hd) ⟨n, h1.shape⟩ t0 le_rfl le_rfl
  rw [r1, hp, r2] at hn
  simp only [Near, ← er_add, er_le] at hn
  have hle : |v1 - v2| ≤ d := abs_le.2 ⟨by linarith [hn.2], by linarith [hn.1]⟩
  refine ⟨hle, fun hlt => ?_⟩
  have s1 := rob_sat (ip := .LINEAR) (D := m1.data) (P := m1.params) (T := T) t0
  have s2 := rob_sat (ip := .LINEAR) (D := m2.data) (P := m2.params) (T := T) t0
  rw [r1, er_pos, er_neg'] at s1
  rw [r2, er_pos, er_neg'] at s2
  have hle' := abs_le.1 hle
  rcases abs_cases v1 with ⟨c1, c2⟩ | ⟨c1, c2⟩
  · exact iff_of_true (s1.1 (by linarith)) (s2.1 (by linarith))
  · exact iff_of_false (s1.2 (by linarith)) (s2.2 (by linarith))

/-- Like `exD`, with `x` raised by 1/2 in the second row. -/
def exD2 : List (List ℚ) := [[0, 0, 1], [1, 5 / 2, -1], [2, 0, 3], [4, 1, 0]]

theorem exD2_rows : WellShaped 2 exD2 := by
  refine ⟨by decide +kernel, ?_⟩
  simp only [exD2, List.pairwise_cons, List.mem_cons, List.not_mem_nil, or_false]
  simp
  norm_num

theorem exM2_ready : Ready .LINEAR 2 Globals.init.B (mon .LINEAR exF exD2) exF 0 0 := by
  have hh : ∀ row, exD2.head? = some row → rowTime row ≤ 0 := by
    intro row h
    simp only [exD2, List.head?_cons, Option.some.injEq] at h
    subst h
    decide +kernel
  refine ⟨rfl, rfl, rfl, rfl, exD2_rows, exM_ready.shape, ?_, le_rfl, le_rfl, ?_⟩
  · refine ⟨fun t h _ => ?_, fun t h _ => ?_⟩
    · exact trace_abs exD2_rows hh (by decide) (k := .greater) (l := sx) (r := num 1)
        ⟨trivial, trivial⟩ (by decide +kernel) t (le_trans (by decide +kernel) h)
    · exact trace_abs exD2_rows hh (by decide) (k := .greater) (l := sy) (r := num 0)
        ⟨trivial, trivial⟩ (by decide +kernel) t (le_trans (by decide +kernel) h)
  · exact ⟨⟨_, 0, rfl, rfl, by decide +kernel⟩, ⟨_, 4, rfl, rfl, by decide +kernel⟩⟩

theorem exM2_slope : NoLongSlope .LINEAR exD2 [] 0 0 exF :=
  ⟨⟨trivial, trivial, fun _ _ => Or.inl ⟨[2, 0, 3], by decide, 2, rfl, by decide +kernel,
    by decide +kernel⟩⟩, fun h => absurd h (by decide +kernel)⟩

example : |(3 : ℚ) - 3| ≤ 1 / 2 ∧ (1 / 2 < |(3 : ℚ)| →
    (Sat .LINEAR exD [] exF 0 ↔ Sat .LINEAR exD2 [] exF 0)) :=
  C39_partial .init (exM.evalRob1 .init 0).1 .init ((mon .LINEAR exF exD2).evalRob1 .init 0).1
    exM (exM.evalRob1 .init 0).2.1 (mon .LINEAR exF exD2)
    ((mon .LINEAR exF exD2).evalRob1 .init 0).2.1 2 exF 0 (1 / 2) 3 3
    exM_ready exM_ok exM_slope exM2_ready
    ⟨Or.inl ⟨trivial, trivial⟩, Or.inl ⟨trivial, trivial⟩⟩ exM2_slope rfl (by decide +kernel)
    ⟨show ∀ row ∈ exD.zip exD2, |margin .greater (rowExpr [] row.1 sx) (rowExpr [] row.1 (num 1)) -
        margin .greater (rowExpr [] row.2 sx) (rowExpr [] row.2 (num 1))| ≤ 1 / 2 by decide +kernel,
      show ∀ row ∈ exD.zip exD2, |margin .greater (rowExpr [] row.1 sy) (rowExpr [] row.1 (num 0)) -
        margin .greater (rowExpr [] row.2 sy) (rowExpr [] row.2 (num 0))| ≤ 1 / 2 by decide +kernel⟩
    (Prod.ext rfl (Prod.ext rfl (by decide +kernel)))
    (Prod.ext rfl (Prod.ext rfl (by decide +kernel)))

/-- `ev_[0,2] ((alw_[0,3] (ev_[0,1] (x > 0))) and y > 0)`. -/
def slackF : Tr := evT 0 2 (.and .init (alwT 0 3 (evT 0 1 (above sx 0))) (above sy 0))

/-- Three rows on two straight lines: `x = -t`, `y = 5 t - 8`. -/
def straightD : List (List ℚ) := [[0, 0, -8], [9 / 2, -9 / 2, 29 / 2], [10, -10, 42]]

/-- Like `straightD`, with `x` lowered by 1/100 in the second row. -/
def bentD : List (List ℚ) := [[0, 0, -8], [9 / 2, -451 / 100, 29 / 2], [10, -10, 42]]

theorem slackF_shape : IsFormula 2 [] slackF :=
  ⟨by decide +kernel, by decide +kernel, ⟨by decide +kernel, by decide +kernel,
    by decide +kernel, by decide +kernel, ⟨1, rfl, by decide, by decide⟩, trivial⟩,
    ⟨2, rfl, by decide, by decide⟩, trivial⟩

theorem straightD_rows : WellShaped 2 straightD := by
  refine ⟨by decide +kernel, ?_⟩
  simp only [straightD, List.pairwise_cons, List.mem_cons, List.not_mem_nil, or_false]
  simp
  norm_num

theorem bentD_rows : WellShaped 2 bentD := by
  refine ⟨by decide +kernel, ?_⟩
  simp only [bentD, List.pairwise_cons, List.mem_cons, List.not_mem_nil, or_false]
  simp
  norm_num

theorem straightD_ready :
    Ready .LINEAR 2 Globals.init.B (mon .LINEAR slackF straightD) slackF 0 0 := by
  have hh : ∀ row, straightD.head? = some row → rowTime row ≤ 0 := by
    intro row h
    simp only [straightD, List.head?_cons, Option.some.injEq] at h
    subst h
    decide +kernel
  refine ⟨rfl, rfl, rfl, rfl, straightD_rows, slackF_shape, ?_, le_rfl, le_rfl, ?_⟩
  · refine ⟨fun t h _ => ?_, fun t h _ => ?_⟩
    · exact trace_abs straightD_rows hh (by decide) (k := .greater) (l := sx) (r := num 0)
        ⟨trivial, trivial⟩ (by decide +kernel) t (le_trans (by decide +kernel) h)
    · exact trace_abs straightD_rows hh (by decide) (k := .greater) (l := sy) (r := num 0)
        ⟨trivial, trivial⟩ (by decide +kernel) t (le_trans (by decide +kernel) h)
  · exact ⟨⟨_, 0, rfl, rfl, by decide +kernel⟩, ⟨_, 10, rfl, rfl, by decide +kernel⟩⟩

theorem bentD_ready : Ready .LINEAR 2 Globals.init.B (mon .LINEAR slackF bentD) slackF 0 0 := by
  have hh : ∀ row, bentD.head? = some row → rowTime row ≤ 0 := by
    intro row h
    simp only [bentD, List.head?_cons, Option.some.injEq] at h
    subst h
    decide +kernel
  refine ⟨rfl, rfl, rfl, rfl, bentD_rows, slackF_shape, ?_, le_rfl, le_rfl, ?_⟩
  · refine ⟨fun t h _ => ?_, fun t h _ => ?_⟩
    · exact trace_abs bentD_rows hh (by decide) (k := .greater) (l := sx) (r := num 0)
        ⟨trivial, trivial⟩ (by decide +kernel) t (le_trans (by decide +kernel) h)
    · exact trace_abs bentD_rows hh (by decide) (k := .greater) (l := sy) (r := num 0)
        ⟨trivial, trivial⟩ (by decide +kernel) t (le_trans (by decide +kernel) h)
  · exact ⟨⟨_, 0, rfl, rfl, by decide +kernel⟩, ⟨_, 10, rfl, rfl, by decide +kernel⟩⟩

/-- C39 is false: on the straight lines `eval_rob` returns -3; lowering one value by 1/100 makes
it return -10373/2701, which is less than -384/100. -/
theorem C39_false : ¬ C39_full := by
  intro h
  have := h .init ((mon .LINEAR slackF straightD).evalRob1 .init 0).1 .init
    ((mon .LINEAR slackF bentD).evalRob1 .init 0).1
    (mon .LINEAR slackF straightD) ((mon .LINEAR slackF straightD).evalRob1 .init 0).2.1
    (mon .LINEAR slackF bentD) ((mon .LINEAR slackF bentD).evalRob1 .init 0).2.1 2 slackF 0 (1 / 100)
    (-3) (-10373 / 2701) straightD_ready bentD_ready ⟨⟨trivial, trivial⟩, trivial, trivial⟩ rfl
    (by decide +kernel)
    ⟨show ∀ row ∈ straightD.zip bentD,
        |margin .greater (rowExpr [] row.1 sx) (rowExpr [] row.1 (num 0)) -
        margin .greater (rowExpr [] row.2 sx) (rowExpr [] row.2 (num 0))| ≤ 1 / 100 by
          decide +kernel,
      show ∀ row ∈ straightD.zip bentD,
        |margin .greater (rowExpr [] row.1 sy) (rowExpr [] row.1 (num 0)) -
        margin .greater (rowExpr [] row.2 sy) (rowExpr [] row.2 (num 0))| ≤ 1 / 100 by
          decide +kernel⟩
    (Prod.ext rfl (Prod.ext rfl (by decide +kernel)))
    (Prod.ext rfl (Prod.ext rfl (by decide +kernel)))
  rw [abs_le] at this
  linarith [this.2]

/-! ## C53 arithmetic in atoms -/

/-- The full claim for a single atom over sums, differences and constant multiples. -/
def C53_full : Prop := ∀ (g : Globals) (m : Monitor) (n : ℕ) (k : Cmp) (l r : Tr) (st : St)
    (s e : ℚ),
  Ready .LINEAR n g.B m (.atom st k l r) s e → IsAffine l → IsAffine r →
    SignalRight g m (.atom st k l r) s e

/-- C53 if the interval is a point or the data has a row at its end.  Missing: the other ends,
for which it fails (`C53_false`). -/
theorem C53_partial (g : Globals) (m : Monitor) (n : ℕ) (k : Cmp) (l r : Tr) (st : St)
    (s e : ℚ) (h : Ready .LINEAR n g.B m (.atom st k l r) s e) (hl : IsAffine l) (hr : IsAffine r)
    (he : s = e ∨ RowAt m.data e) : SignalRight g m (.atom st k l r) s e :=
  C21_partial g m n _ s e h (Or.inr ⟨hl, hr, he⟩) trivial trivial

/-- `x + 1 > 0`. -/
def sumF : Tr := above (.plus .init sx (num 1)) 0

theorem sumF_ready (e : ℚ) (h0 : 0 ≤ e) (h1 : e ≤ 10) :
    Ready .LINEAR 2 Globals.init.B (mon .LINEAR sumF badD) sumF 0 e := by
  refine ⟨rfl, rfl, rfl, rfl, badD_rows, ?_, ?_, le_rfl, h0, ?_⟩
  · refine ⟨⟨⟨1, rfl, by decide, by decide⟩, trivial⟩, trivial⟩
  · exact fun t h _ => trace_abs badD_rows badD_head (by decide) (k := .greater)
      (l := .plus .init sx (num 1)) (r := num 0) ⟨⟨trivial, trivial⟩, trivial⟩ (by decide +kernel) t h
  · refine ⟨⟨_, 0, rfl, rfl, by decide +kernel⟩, ⟨_, 10, rfl, rfl, ?_⟩⟩
    show e + 0 ≤ 10
    linarith

example : SignalRight .init (mon .LINEAR sumF badD) sumF 0 10 :=
  C53_partial _ _ 2 _ _ _ _ _ _ (sumF_ready 10 (by norm_num) le_rfl) ⟨trivial, trivial⟩ trivial
    (Or.inr ⟨[10, 10, -42], by simp [mon, badD], rfl⟩)

/-- C53 is false: for `x + 1 > 0` on `[0,1]` and rows at 0 and 10 the signal of `get_signal`
ends at time 0. -/
theorem C53_false : ¬ C53_full := by
  intro h
  obtain ⟨g', m', v, z, h1, h2, h3, h4, _⟩ := h .init _ 2 _ _ _ _ 0 1
    (sumF_ready 1 (by norm_num) (by norm_num)) ⟨trivial, trivial⟩ trivial
  have h5 : ((mon .LINEAR sumF badD).evalRob .init 0 1).2.1.getSignal =
      .ok ⟨[⟨0, 1, 0⟩], 0, 0⟩ := by decide +kernel
  rw [show (mon .LINEAR sumF badD).evalRob .init 0 1 = _ from h1] at h5
  simp only at h5
  rw [h2, Except.ok.injEq] at h5
  subst h5
  norm_num at h4

/-! ## C30 rows past the horizon -/

/-- C30 for formulas that meet `NoLongSlope` and `Untrimmed`: replacing the rows after one at or
past the horizon changes neither robustness nor bounds.  Missing: the other formulas. -/
theorem C30_exact_partial (g : Globals) (m : Monitor) (n : ℕ) (T : Tr) (s e : ℚ)
    (D' : List (List ℚ))
    (h : Ready .LINEAR n g.B m T s e) (ha : AtomsOk m.data m.params s e T)
    (hn : NoLongSlope .LINEAR m.data m.params s e T) (hu : Untrimmed m.params s e T)
    (hD : WellShaped n D') (hs : SameUntil (e + reach m.params T) m.data D') :
    ∃ m1 m2 v, (m.evalRob g s e).2 = (m1, .ok v) ∧
      (Monitor.evalRob g { m with data := D' } s e).2 = (m2, .ok v) ∧
      m1.rob = m2.rob ∧ m1.lowerRob = m2.lowerRob ∧ m1.upperRob = m2.upperRob := by
  obtain ⟨g1, m1, v1, z1, a1, a2, a3, a4, _, a5, _⟩ := evalRob_exact h ha hn hu
  have hb : ∀ i t, t ≤ e + reach m.params T → trace .LINEAR m.data i t = trace .LINEAR D' i t :=
    fun i t ht => trace_upto h.rows hD hs i ht
  obtain ⟨g2, m2, v2, z2, b1, b2, b3, b4, _, b5, _⟩ := evalRob_exact (h.upto hD hs)
    (atomsOk_upto h.rows hs h.shape le_rfl ha) (noLongSlope_upto hb
      (fun t ht => rowAt_upto h.rows hs ht) h.shape le_rfl hn) hu
  have hv : v1 = v2 := by
    apply er_inj
    rw [← a5, ← b5]
    exact rob_upto hb h.shape (by linarith [h.stop])
  subst hv
  exact ⟨m1, m2, v1, by rw [a1], by rw [b1], a2.trans b2.symm, a3.trans b3.symm, a4.trans b4.symm⟩

example : ∃ m1 m2 v, (exM.evalRob .init 0 0).2 = (m1, .ok v) ∧
      (Monitor.evalRob .init { exM with data := exD ++ [[5, 100, -100]] } 0 0).2 = (m2, .ok v) ∧
      m1.rob = m2.rob ∧ m1.lowerRob = m2.lowerRob ∧ m1.upperRob = m2.upperRob := by
  refine C30_exact_partial _ _ 2 _ _ _ _ exM_ready exM_ok exM_slope exM_trim ?_
    ⟨[[0, 0, 1], [1, 2, -1], [2, 0, 3]], [4, 1, 0], [], [[5, 100, -100]], rfl, rfl, 4, rfl,
      by decide +kernel⟩
  refine ⟨by decide +kernel, ?_⟩
  simp only [exD, List.cons_append, List.nil_append, List.pairwise_cons, List.mem_cons,
    List.not_mem_nil, or_false]
  simp
  norm_num

end Props
end STLRom
