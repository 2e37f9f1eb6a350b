import Verif.Props.Formula

/-!
# Properties C20, C21, C28, C38, C39 for a class of formulas given by their shape alone

Where every temporal operator inside another one has a conjunction, disjunction or implication
as its operand (`Joined`), the slope is never lost and `eval_rob` is right on every covering
trace.  The outermost temporal operators may have any operand if the formula is evaluated at a
single time.
-/

namespace STLRom
namespace Props
open Signal Spec

/-- C20 and C28 for these formulas, whatever the rows are: the number returned and both bounds are
the robustness.  Missing from the full claims: formulas with a temporal operator directly over an
atom or over another temporal operator inside a temporal operator (`C20_partial`, `C28_partial`
have conditions on the rows for those; see `C20_false`). -/
theorem C20_boolean_partial (g : Globals) (m : Monitor) (n : ℕ) (T : Tr) (t0 : ℚ)
    (h : Ready .LINEAR n g.B m T t0 t0) (hp : PlainAtoms T) (hj : Joined false T) :
    ∃ g' m' v, m.evalRob1 g t0 = (g', m', .ok v) ∧ rob .LINEAR m.data m.params T t0 = er v ∧
      m'.lowerRob = v ∧ m'.upperRob = v := by
  obtain ⟨hn, hu⟩ := slope_joined (ip := .LINEAR) (D := m.data) h.shape hj fun _ => rfl
  obtain ⟨g', m', v, z, h1, _, h3, h4, _, h2, _⟩ := evalRob_exact h (plain_ok _ _ hp) hn hu
  exact ⟨g', m', v, h1, h2, h3, h4⟩

/-- C21 for formulas all of whose temporal operators have Boolean operands.  Missing: as above. -/
theorem C21_boolean_partial (g : Globals) (m : Monitor) (n : ℕ) (T : Tr) (s e : ℚ)
    (h : Ready .LINEAR n g.B m T s e) (hp : PlainAtoms T) (hj : Joined true T) :
    SignalRight g m T s e := by
  obtain ⟨hn, hu⟩ := slope_joined (ip := .LINEAR) (D := m.data) h.shape hj fun h => nomatch h
  exact C21_partial g m n T s e h (plain_ok _ _ hp) hn hu

/-- C38 for these formulas.  Missing: as above. -/
theorem C38_boolean_partial (g : Globals) (m : Monitor) (n : ℕ) (T : Tr) (t0 : ℚ)
    (h : Ready .LINEAR n g.B m T t0 t0) (hp : PlainAtoms T) (hj : Joined false T) :
    ∃ g' m' v, m.evalRob1 g t0 = (g', m', .ok v) ∧
      (0 < v → Sat .LINEAR m.data m.params T t0) ∧ (v < 0 → ¬ Sat .LINEAR m.data m.params T t0) := by
  obtain ⟨hn, hu⟩ := slope_joined (ip := .LINEAR) (D := m.data) h.shape hj fun _ => rfl
  obtain ⟨g', m', v, h1, _⟩ := C20_boolean_partial g m n T t0 h hp hj
  exact ⟨g', m', v, h1, C38_partial g g' m m' n T t0 v h (plain_ok _ _ hp) hn h1⟩

/-- C39 for these formulas: if no atom changes by more than `d` in any row, the number returned
changes by at most `d`.  Missing: as above; for other formulas it can change by more
(`C39_false`). -/
theorem C39_boolean_partial (g1 g2 : Globals) (m1 m2 : Monitor) (n : ℕ) (T : Tr) (t0 d : ℚ)
    (h1 : Ready .LINEAR n g1.B m1 T t0 t0) (h2 : Ready .LINEAR n g2.B m2 T t0 t0)
    (ha : PlainAtoms T) (hj : Joined false T) (hp : m1.params = m2.params)
    (ht : m1.data.map (·.head?) = m2.data.map (·.head?))
    (hd : SampledNear d m1.data m2.data m1.params T) :
    ∃ g1' m1' v1 g2' m2' v2, m1.evalRob1 g1 t0 = (g1', m1', .ok v1) ∧
      m2.evalRob1 g2 t0 = (g2', m2', .ok v2) ∧ |v1 - v2| ≤ d := by
  obtain ⟨n1, _⟩ := slope_joined (ip := .LINEAR) (D := m1.data) h1.shape hj fun _ => rfl
  obtain ⟨n2, _⟩ := slope_joined (ip := .LINEAR) (D := m2.data) h2.shape hj fun _ => rfl
  obtain ⟨g1', m1', v1, e1, _⟩ := C20_boolean_partial g1 m1 n T t0 h1 ha hj
  obtain ⟨g2', m2', v2, e2, _⟩ := C20_boolean_partial g2 m2 n T t0 h2 ha hj
  exact ⟨g1', m1', v1, g2', m2', v2, e1, e2, (C39_partial g1 g1' g2 g2' m1 m1' m2 m2' n T t0 d v1 v2
    h1 (plain_ok _ _ ha) n1 h2 (plain_ok _ _ ha) n2 hp ht hd e1 e2).1⟩

/-! ## Examples -/

/-- `alw_[0,2] ((ev_[0,3] (x > 0 or y > 9)) or y > 0)`, the formula of `C20_false` with a Boolean
operator inside `ev`. -/
def joinF : Tr := alwT 0 2 (.or .init (evT 0 3 (.or .init (above sx 0) (above sy 9))) (above sy 0))

theorem joinF_shape : IsFormula 2 [] joinF :=
  ⟨by decide +kernel, by decide +kernel, ⟨by decide +kernel, by decide +kernel,
    ⟨⟨1, rfl, by decide, by decide⟩, trivial⟩, ⟨2, rfl, by decide, by decide⟩, trivial⟩,
    ⟨2, rfl, by decide, by decide⟩, trivial⟩

theorem joinF_plain : PlainAtoms joinF := ⟨⟨⟨trivial, trivial⟩, trivial, trivial⟩, trivial, trivial⟩

theorem joinF_joined (i : Bool) : Joined i joinF := by
  cases i <;> exact ⟨⟨⟨⟨trivial, trivial⟩, fun _ => trivial⟩, trivial⟩, fun _ => trivial⟩

/-- `badD` with the last value of `x` lowered by 1/100. -/
def badD2 : List (List ℚ) := [[0, 0, 8], [10, 999 / 100, -42]]

theorem badD2_rows : WellShaped 2 badD2 := by
  refine ⟨by decide +kernel, ?_⟩
  simp only [badD2, List.pairwise_cons, List.mem_cons, List.not_mem_nil, or_false]
  simp

theorem joinF_ready {D : List (List ℚ)} (hD : D = badD ∨ D = badD2) {e : ℚ} (h0 : 0 ≤ e) (he : e ≤ 5) :
    Ready .LINEAR 2 Globals.init.B (mon .LINEAR joinF D) joinF 0 e := by
  have hr : WellShaped 2 D := by rcases hD with rfl | rfl; exacts [badD_rows, badD2_rows]
  have hh : ∀ row, D.head? = some row → rowTime row ≤ 0 := by
    rcases hD with rfl | rfl <;> intro row h <;>
      simp only [badD, badD2, List.head?_cons, Option.some.injEq] at h <;> subst h <;> decide +kernel
  have ha : ∀ T : Tr, ∀ c : ℚ, T = sx ∨ T = sy → c = 0 ∨ c = 9 → ∀ t, 0 ≤ t →
      -Globals.init.B ≤ margin .greater (expr .LINEAR D [] T t) (expr .LINEAR D [] (num c) t) ∧
      margin .greater (expr .LINEAR D [] T t) (expr .LINEAR D [] (num c) t) ≤ Globals.init.B := by
    intro T c hT hc t ht
    have hA : IsAffine T ∧ IsAffine (num c) := by rcases hT with rfl | rfl <;> exact ⟨trivial, trivial⟩
    refine trace_abs hr hh ?_ hA ?_ t ht
    · rcases hD with rfl | rfl <;> decide
    · rcases hD with rfl | rfl <;> rcases hT with rfl | rfl <;> rcases hc with rfl | rfl <;> decide +kernel
  have b0 : ∀ a b : ℚ, bound [] (lit a b).beginStr (lit a b).begin = a := fun _ _ => rfl
  have b1 : ∀ a b : ℚ, bound [] (lit a b).stopStr (lit a b).stop = b := fun _ _ => rfl
  refine ⟨rfl, rfl, rfl, rfl, hr, joinF_shape, ?_, le_rfl, h0, ?_⟩
  · simp only [mon, joinF, alwT, evT, above, AtomsWithin, b0, b1]
    exact ⟨⟨fun t h _ => ha _ _ (Or.inl rfl) (Or.inl rfl) t (by linarith),
      fun t h _ => ha _ _ (Or.inr rfl) (Or.inr rfl) t (by linarith)⟩,
      fun t h _ => ha _ _ (Or.inr rfl) (Or.inl rfl) t (by linarith)⟩
  · have : reach [] joinF = 5 := by decide +kernel
    refine ⟨?_, ?_⟩
    · rcases hD with rfl | rfl <;> exact ⟨_, 0, rfl, rfl, le_rfl⟩
    · rcases hD with rfl | rfl <;> exact ⟨_, 10, rfl, rfl, by rw [show (mon .LINEAR joinF _).params = [] from rfl, this]; linarith⟩

example : ∃ g' m' v, (mon .LINEAR joinF badD).evalRob1 .init 0 = (g', m', .ok v) ∧
    rob .LINEAR badD [] joinF 0 = er v ∧ m'.lowerRob = v ∧ m'.upperRob = v :=
  C20_boolean_partial .init _ 2 _ 0 (joinF_ready (Or.inl rfl) le_rfl (by norm_num)) joinF_plain
    (joinF_joined false)

/-- The value is the one that `C20_false` misses. -/
example : ((mon .LINEAR joinF badD).evalRob1 .init 0).2.2 = .ok (23 / 6) := by decide +kernel

example : SignalRight .init (mon .LINEAR joinF badD) joinF 0 3 :=
  C21_boolean_partial .init _ 2 _ 0 3 (joinF_ready (Or.inl rfl) (by norm_num) (by norm_num)) joinF_plain
    (joinF_joined true)

example : ∃ g' m' v, (mon .LINEAR joinF badD).evalRob1 .init 0 = (g', m', .ok v) ∧
    (0 < v → Sat .LINEAR badD [] joinF 0) ∧ (v < 0 → ¬ Sat .LINEAR badD [] joinF 0) :=
  C38_boolean_partial .init _ 2 _ 0 (joinF_ready (Or.inl rfl) le_rfl (by norm_num)) joinF_plain
    (joinF_joined false)

example : ∃ g1' m1' v1 g2' m2' v2, (mon .LINEAR joinF badD).evalRob1 .init 0 = (g1', m1', .ok v1) ∧
    (mon .LINEAR joinF badD2).evalRob1 .init 0 = (g2', m2', .ok v2) ∧ |v1 - v2| ≤ 1 / 100 :=
  C39_boolean_partial .init .init _ _ 2 joinF 0 (1 / 100)
    (joinF_ready (Or.inl rfl) le_rfl (by norm_num)) (joinF_ready (Or.inr rfl) le_rfl (by norm_num))
    joinF_plain (joinF_joined false) rfl (by decide +kernel)
    ⟨⟨show ∀ row ∈ badD.zip badD2, |margin .greater (rowExpr [] row.1 sx) (rowExpr [] row.1 (num 0)) -
        margin .greater (rowExpr [] row.2 sx) (rowExpr [] row.2 (num 0))| ≤ 1 / 100 by decide +kernel,
      show ∀ row ∈ badD.zip badD2, |margin .greater (rowExpr [] row.1 sy) (rowExpr [] row.1 (num 9)) -
        margin .greater (rowExpr [] row.2 sy) (rowExpr [] row.2 (num 9))| ≤ 1 / 100 by decide +kernel⟩,
      show ∀ row ∈ badD.zip badD2, |margin .greater (rowExpr [] row.1 sy) (rowExpr [] row.1 (num 0)) -
        margin .greater (rowExpr [] row.2 sy) (rowExpr [] row.2 (num 0))| ≤ 1 / 100 by decide +kernel⟩

end Props
end STLRom
