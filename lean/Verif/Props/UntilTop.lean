import Verif.Props.UntilRun
import Verif.Proofs.UntilTop

/-!
# Property C67: formulas with `until` outside the temporal operators
-/

namespace STLRom
namespace Props
open Signal Spec

/-- The full claim: on a covering trace, with all comparisons within `±B`, `eval_rob` returns the
robustness of every formula whose `until`s are outside of temporal operators, and both bounds are
equal to it. -/
def C67_full : Prop := ∀ (g : Globals) (m : Monitor) (n : ℕ) (T : Tr) (t : ℚ),
  TopReady n g.B m T t → Untrimmed m.params t t T →
    ∃ g' m' v, m.evalRob1 g t = (g', m', .ok v) ∧ rob .LINEAR m.data m.params T t = er v ∧
      m'.rob = v ∧ m'.lowerRob = v ∧ m'.upperRob = v

/-- C67 where no operand of an `until` begins at `-B` or `B`.  Missing: the operands that do, where it
is false (`C67_false`). -/
theorem C67_partial (g : Globals) (m : Monitor) (n : ℕ) (T : Tr) (t : ℚ)
    (h : TopReady n g.B m T t) (hu : Untrimmed m.params t t T)
    (hi : BeginsInside .LINEAR g.B m.data m.params t T) :
    ∃ g' m' v, m.evalRob1 g t = (g', m', .ok v) ∧ rob .LINEAR m.data m.params T t = er v ∧
      m'.rob = v ∧ m'.lowerRob = v ∧ m'.upperRob = v :=
  evalRob_top h hu hi

/-- C67 for a single `until` with until-free operands, at every time.  The value is right without
any condition on `±B`; it says exactly when the bounds meet it. -/
theorem C67_single_partial (g : Globals) (m : Monitor) (n : ℕ) (st : St) (l r : Tr) (I : Ival) (a t : ℚ)
    (h : TopReady n g.B m (.untl st l I r) t) (hu : Untrimmed m.params t t (.untl st l I r))
    (hA : bound m.params I.beginStr I.begin = a) :
    ∃ g' m' v, m.evalRob1 g t = (g', m', .ok v) ∧
      rob .LINEAR m.data m.params (.untl st l I r) t = er v ∧
      ((rob .LINEAR m.data m.params r (t + a) = er (-g.B) → m'.lowerRob = -g.B) ∧
        (rob .LINEAR m.data m.params r (t + a) ≠ er (-g.B) → m'.lowerRob = v)) ∧
      ((rob .LINEAR m.data m.params l t = er g.B ∨ rob .LINEAR m.data m.params r (t + a) = er g.B →
          m'.upperRob = g.B) ∧
        (¬ (rob .LINEAR m.data m.params l t = er g.B ∨ rob .LINEAR m.data m.params r (t + a) = er g.B) →
          m'.upperRob = v)) :=
  evalRob_untl h hu hA

/-! ### A concrete formula -/

/-- `(x > 1 or ev_[0,2] y > 0) until_[1/4,1] y > 0`. -/
def topU : Tr := .untl .init exG (lit (1 / 4) 1) (above sy 0)

/-- `x > -1 and not topU`. -/
def topF : Tr := .and .init (above sx (-1)) (.not .init topU)

theorem exD_head : ∀ row, exD.head? = some row → rowTime row ≤ 0 := by
  intro row h
  simp only [exD, List.head?_cons, Option.some.injEq] at h
  subst h
  decide +kernel

theorem exD_x (c : ℚ) {K : ℚ} (hK : ∀ row ∈ exD, |margin .greater (rowExpr [] row sx) (rowExpr [] row (num c))| ≤ K)
    (t : ℚ) (ht : 0 ≤ t) : er (-K) ≤ rob .LINEAR exD [] (above sx c) t ∧ rob .LINEAR exD [] (above sx c) t ≤ er K := by
  have := trace_abs exD_rows exD_head (by decide) (k := .greater) (l := sx) (r := num c) ⟨trivial, trivial⟩ hK t ht
  exact ⟨er_le.2 this.1, er_le.2 this.2⟩

theorem exD_y (c : ℚ) {K : ℚ} (hK : ∀ row ∈ exD, |margin .greater (rowExpr [] row sy) (rowExpr [] row (num c))| ≤ K)
    (t : ℚ) (ht : 0 ≤ t) : er (-K) ≤ rob .LINEAR exD [] (above sy c) t ∧ rob .LINEAR exD [] (above sy c) t ≤ er K := by
  have := trace_abs exD_rows exD_head (by decide) (k := .greater) (l := sy) (r := num c) ⟨trivial, trivial⟩ hK t ht
  exact ⟨er_le.2 this.1, er_le.2 this.2⟩

theorem topF_ready : TopReady 2 Globals.init.B (mon .LINEAR topF exD) topF 0 := by
  have h := exG_ready
  refine ⟨rfl, rfl, rfl, rfl, exD_rows, ?_, ?_, ?_, ?_, le_rfl, ?_⟩
  · exact ⟨⟨⟨1, rfl, by decide, by decide⟩, trivial⟩, by decide +kernel, by decide +kernel, h.shape,
      ⟨2, rfl, by decide, by decide⟩, trivial⟩
  · exact ⟨Or.inl ⟨trivial, trivial⟩, ⟨Or.inl ⟨trivial, trivial⟩, Or.inl ⟨trivial, trivial⟩⟩,
      Or.inl ⟨trivial, trivial⟩⟩
  · refine ⟨fun t h0 _ => ?_, ?_, fun t h0 _ => ?_⟩
    · exact trace_abs exD_rows exD_head (by decide) (k := .greater) (l := sx) (r := num (-1))
        ⟨trivial, trivial⟩ (by decide +kernel) t h0
    · have := h.within
      simpa [topU, mon, AtomsWithin, lit, bound] using this
    · exact trace_abs exD_rows exD_head (by decide) (k := .greater) (l := sy) (r := num 0)
        ⟨trivial, trivial⟩ (by decide +kernel) t (le_trans (by decide +kernel) h0)
  · refine ⟨trivial, ?_, trivial⟩
    have := exG_slope
    simpa [mon, lit, bound] using this
  · exact ⟨⟨_, 0, rfl, rfl, by decide +kernel⟩, ⟨_, 4, rfl, rfl, by decide +kernel⟩⟩

theorem topF_trim : Untrimmed (mon .LINEAR topF exD).params 0 0 topF :=
  ⟨trivial, ⟨trivial, trivial, fun _ => by decide +kernel⟩, trivial⟩

theorem topU_inside : BeginsInside .LINEAR Globals.init.B exD [] 0 topU := by
  have hx := exD_x 1 (K := 3) (by decide +kernel)
  have hy := exD_y 0 (K := 3) (by decide +kernel)
  have lo : er (-Globals.init.B) < er (-3) := by refine lt_of_le_of_ne (er_le.2 (by decide +kernel)) fun e => absurd (er_inj e) (by decide +kernel)
  have hi : er 3 < er Globals.init.B := by refine lt_of_le_of_ne (er_le.2 (by decide +kernel)) fun e => absurd (er_inj e) (by decide +kernel)
  refine ⟨⟨lo.trans_le ((hx 0 le_rfl).1.trans (le_max_left _ _)), lt_of_le_of_lt (max_le (hx 0 le_rfl).2 ?_) hi⟩,
    lo.trans_le (hy _ (by decide +kernel)).1, lt_of_le_of_lt (hy _ (by decide +kernel)).2 hi⟩
  exact iSup₂_le fun u hu => (hy u (le_trans (by decide +kernel) hu.1)).2

example : ∃ g' m' v, (mon .LINEAR topF exD).evalRob1 .init 0 = (g', m', .ok v) ∧
    rob .LINEAR exD [] topF 0 = er v ∧ m'.rob = v ∧ m'.lowerRob = v ∧ m'.upperRob = v :=
  C67_partial _ _ 2 _ _ topF_ready topF_trim ⟨trivial, topU_inside⟩

/-- The value in this case is -1/2: `y` is 1/2 at time 1/4. -/
example : results (mon .LINEAR topF exD) 0 = (.ok (-1 / 2), -1 / 2, -1 / 2) := by decide +kernel

/-- Two `until`s at time 1. -/
def lateF : Tr := .or .init (xUy 1 2) (.and .init (xUy 0 1) (above sx (-1)))

theorem lateF_ready : TopReady 2 Globals.init.B (mon .LINEAR lateF exD) lateF 1 := by
  have hx := trace_abs (P := []) (K := Globals.init.B) exD_rows exD_head (by decide) (k := .greater) (l := sx)
    (r := num 0) ⟨trivial, trivial⟩ (by decide +kernel)
  have hx' := trace_abs (P := []) (K := Globals.init.B) exD_rows exD_head (by decide) (k := .greater) (l := sx)
    (r := num (-1)) ⟨trivial, trivial⟩ (by decide +kernel)
  have hy := trace_abs (P := []) (K := Globals.init.B) exD_rows exD_head (by decide) (k := .greater) (l := sy)
    (r := num 0) ⟨trivial, trivial⟩ (by decide +kernel)
  have ix : IsExpr 2 sx := ⟨1, rfl, by decide, by decide⟩
  have iy : IsExpr 2 sy := ⟨2, rfl, by decide, by decide⟩
  refine ⟨rfl, rfl, rfl, rfl, exD_rows, ?_, ?_, ?_, ⟨⟨trivial, trivial⟩, ⟨trivial, trivial⟩, trivial⟩, by norm_num, ?_⟩
  · exact ⟨⟨by decide +kernel, by decide +kernel, ⟨ix, trivial⟩, ⟨iy, trivial⟩⟩,
      ⟨by decide +kernel, by decide +kernel, ⟨ix, trivial⟩, ⟨iy, trivial⟩⟩, ⟨ix, trivial⟩⟩
  · exact ⟨⟨Or.inl ⟨trivial, trivial⟩, Or.inl ⟨trivial, trivial⟩⟩, ⟨Or.inl ⟨trivial, trivial⟩,
      Or.inl ⟨trivial, trivial⟩⟩, Or.inl ⟨trivial, trivial⟩⟩
  · exact ⟨⟨fun t h0 _ => hx t (le_trans (by decide +kernel) h0), fun t h0 _ => hy t (le_trans (by decide +kernel) h0)⟩,
      ⟨fun t h0 _ => hx t (le_trans (by decide +kernel) h0), fun t h0 _ => hy t (le_trans (by decide +kernel) h0)⟩,
      fun t h0 _ => hx' t (le_trans (by decide +kernel) h0)⟩
  · exact ⟨⟨_, 0, rfl, rfl, by decide +kernel⟩, ⟨_, 4, rfl, rfl, by decide +kernel⟩⟩

theorem lateF_inside : BeginsInside .LINEAR Globals.init.B exD [] 1 lateF := by
  have hx := exD_x 0 (K := 4) (by decide +kernel)
  have hy := exD_y 0 (K := 3) (by decide +kernel)
  have lo : ∀ K : ℚ, K < Globals.init.B → er (-Globals.init.B) < er (-K) := fun K h =>
    lt_of_le_of_ne (er_le.2 (by linarith)) fun e => absurd (er_inj e) (by linarith)
  have hi : ∀ K : ℚ, K < Globals.init.B → er K < er Globals.init.B := fun K h =>
    lt_of_le_of_ne (er_le.2 h.le) fun e => absurd (er_inj e) h.ne
  have h4 : (4 : ℚ) < Globals.init.B := by decide +kernel
  have h3 : (3 : ℚ) < Globals.init.B := by decide +kernel
  have bx : ∀ t : ℚ, 0 ≤ t → Inside Globals.init.B (rob .LINEAR exD [] (above sx 0) t) := fun t h =>
    ⟨(lo 4 h4).trans_le (hx t h).1, lt_of_le_of_lt (hx t h).2 (hi 4 h4)⟩
  have by' : ∀ t : ℚ, 0 ≤ t → Inside Globals.init.B (rob .LINEAR exD [] (above sy 0) t) := fun t h =>
    ⟨(lo 3 h3).trans_le (hy t h).1, lt_of_le_of_lt (hy t h).2 (hi 3 h3)⟩
  exact ⟨⟨bx _ (by decide +kernel), by' _ (by decide +kernel)⟩, ⟨bx _ (by decide +kernel), by' _ (by decide +kernel)⟩, trivial⟩

example : ∃ g' m' v, (mon .LINEAR lateF exD).evalRob1 .init 1 = (g', m', .ok v) ∧
    rob .LINEAR exD [] lateF 1 = er v ∧ m'.rob = v ∧ m'.lowerRob = v ∧ m'.upperRob = v :=
  C67_partial _ _ 2 _ _ lateF_ready ⟨⟨trivial, trivial⟩, ⟨trivial, trivial⟩, trivial⟩ lateF_inside

/-- The single `until` at time 1. -/
theorem topU_ready : TopReady 2 Globals.init.B (mon .LINEAR (xUy 1 2) exD) (xUy 1 2) 1 := by
  refine ⟨rfl, rfl, rfl, rfl, exD_rows, ?_, ?_, ?_, ⟨trivial, trivial⟩, by norm_num, ?_⟩
  · exact ⟨by decide +kernel, by decide +kernel, ⟨⟨1, rfl, by decide, by decide⟩, trivial⟩,
      ⟨2, rfl, by decide, by decide⟩, trivial⟩
  · exact ⟨Or.inl ⟨trivial, trivial⟩, Or.inl ⟨trivial, trivial⟩⟩
  · refine ⟨fun t h0 _ => ?_, fun t h0 _ => ?_⟩
    · exact trace_abs exD_rows exD_head (by decide) (k := .greater) (l := sx) (r := num 0)
        ⟨trivial, trivial⟩ (by decide +kernel) t (le_trans (by decide +kernel) h0)
    · exact trace_abs exD_rows exD_head (by decide) (k := .greater) (l := sy) (r := num 0)
        ⟨trivial, trivial⟩ (by decide +kernel) t (le_trans (by decide +kernel) h0)
  · exact ⟨⟨_, 0, rfl, rfl, by decide +kernel⟩, ⟨_, 4, rfl, rfl, by decide +kernel⟩⟩

example : ∃ g' m' v, (mon .LINEAR (xUy 1 2) exD).evalRob1 .init 1 = (g', m', .ok v) ∧
    rob .LINEAR exD [] (xUy 1 2) 1 = er v := by
  obtain ⟨g', m', v, h1, h2, -⟩ := C67_single_partial .init _ 2 _ _ _ _ 1 1 topU_ready ⟨trivial, trivial⟩ rfl
  exact ⟨g', m', v, h1, h2⟩

/-! ### What fails -/

/-- `x` is 1, `y` rises from -10000 = -B to 3. -/
def lowD : List (List ℚ) := [[0, 1, -10000], [4, 1, 3]]

/-- `x > 0 and (x > 0 until_[0,2] y > 0)`. -/
def lowF : Tr := .and .init (above sx 0) (xUy 0 2)

theorem lowD_rows : WellShaped 2 lowD := by
  refine ⟨by decide +kernel, ?_⟩
  simp [lowD]

theorem lowF_ready : TopReady 2 Globals.init.B (mon .LINEAR lowF lowD) lowF 0 := by
  have hh : ∀ row, lowD.head? = some row → rowTime row ≤ 0 := by
    intro row h
    simp only [lowD, List.head?_cons, Option.some.injEq] at h
    subst h
    decide +kernel
  have hx := trace_abs (P := []) (K := Globals.init.B) lowD_rows hh (by decide) (k := .greater) (l := sx)
    (r := num 0) ⟨trivial, trivial⟩ (by decide +kernel)
  have hy := trace_abs (P := []) (K := Globals.init.B) lowD_rows hh (by decide) (k := .greater) (l := sy)
    (r := num 0) ⟨trivial, trivial⟩ (by decide +kernel)
  refine ⟨rfl, rfl, rfl, rfl, lowD_rows, ?_, ?_, ?_, ⟨trivial, trivial, trivial⟩, le_rfl, ?_⟩
  · exact ⟨⟨⟨1, rfl, by decide, by decide⟩, trivial⟩, by decide +kernel, by decide +kernel,
      ⟨⟨1, rfl, by decide, by decide⟩, trivial⟩, ⟨2, rfl, by decide, by decide⟩, trivial⟩
  · exact ⟨Or.inl ⟨trivial, trivial⟩, Or.inl ⟨trivial, trivial⟩, Or.inl ⟨trivial, trivial⟩⟩
  · exact ⟨fun t h0 _ => hx t h0, fun t h0 _ => hx t (le_trans (by decide +kernel) h0),
      fun t h0 _ => hy t (le_trans (by decide +kernel) h0)⟩
  · exact ⟨⟨_, 0, rfl, rfl, by decide +kernel⟩, ⟨_, 4, rfl, rfl, by decide +kernel⟩⟩

/-- C67 is false: when the right operand of an `until` begins at `-B`, an `and` above it is undefined
behaviour. -/
theorem C67_false : ¬ C67_full := by
  intro h
  obtain ⟨g', m', v, h1, -⟩ := h .init (mon .LINEAR lowF lowD) 2 lowF 0 lowF_ready ⟨trivial, trivial, trivial⟩
  have h2 : ((mon .LINEAR lowF lowD).evalRob1 .init 0).2.2 = .error .ub := by decide +kernel
  rw [h1] at h2
  cases h2

/-- Below a temporal operator the bounds of an `until` need not meet: on a covering trace
`ev_[1,2] (x > 0 until_[1/2,1] y > 0)` has the robustness 1 and the upper bound `B`. -/
theorem C67_nested_false :
    results (mon .LINEAR (evT 1 2 (xUy (1 / 2) 1)) exD) 0 = (.ok 1, 1, 10000) := by decide +kernel

/-- `x > 0 and (x > 0 until_[0,1] ev_[0,1] y > 0)`. -/
def earlyF : Tr := .and .init (above sx 0) (.untl .init (above sx 0) (lit 0 1) (evT 0 1 (above sy 0)))

/-- While the trace does not reach the horizon, the same happens without any value at `±B`: after two
rows the evaluation is undefined behaviour, and after a third it returns 1. -/
theorem C17_until_false :
    ((mon .LINEAR earlyF [[0, 3, 1], [1 / 2, 1, 1]]).evalRob1 .init 0).2.2 = .error .ub ∧
    results (mon .LINEAR earlyF [[0, 3, 1], [1 / 2, 1, 1], [2, 1, 1]]) 0 = (.ok 1, 1, 1) := by
  constructor <;> decide +kernel

/-- `ev_[0,1] (x > 0 until_[0,1] alw_[0,1] y > 0)`. -/
def emptyF : Tr := evT 0 1 (.untl .init (above sx 0) (lit 0 1) (alwT 0 1 (above sy 0)))

/-- A temporal operator above such an `until` reads 0 from the signal that was never filled: the
lower bound after two rows is 0, and the third row settles the robustness at -1. -/
theorem C25_until_false :
    results (mon .LINEAR emptyF [[0, 3, -1], [1 / 2, 1, -1]]) 0 = (.ok (-1), 0, 10000) ∧
    results (mon .LINEAR emptyF [[0, 3, -1], [1 / 2, 1, -1], [10, 3, -1]]) 0 = (.ok (-1), -1, -1) := by
  constructor <;> decide +kernel

/-! ### The sign -/

/-- C38 for the formulas of C67: a positive result means that the formula holds, a negative one that
it does not. -/
theorem C38_until_partial (g g' : Globals) (m m' : Monitor) (n : ℕ) (T : Tr) (t v : ℚ)
    (h : TopReady n g.B m T t) (hu : Untrimmed m.params t t T)
    (hi : BeginsInside .LINEAR g.B m.data m.params t T) (hv : m.evalRob1 g t = (g', m', .ok v)) :
    (0 < v → Sat .LINEAR m.data m.params T t) ∧ (v < 0 → ¬ Sat .LINEAR m.data m.params T t) := by
  obtain ⟨g1, m1, v1, h1, h2, -⟩ := evalRob_top h hu hi
  rw [hv] at h1
  simp only [Prod.mk.injEq, Except.ok.injEq] at h1
  obtain ⟨-, -, rfl⟩ := h1
  have h3 := rob_sat (ip := .LINEAR) (D := m.data) (P := m.params) (T := T) t
  rw [h2, er_pos, er_neg'] at h3
  exact h3

example : ¬ Sat .LINEAR exD [] topF 0 :=
  (C38_until_partial .init _ (mon .LINEAR topF exD) _ 2 topF 0 (-1 / 2) topF_ready topF_trim ⟨trivial, topU_inside⟩
    (Prod.ext rfl (Prod.ext rfl (by decide +kernel)))).2 (by norm_num)

end Props
end STLRom
