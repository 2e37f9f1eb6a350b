import Verif.Props.UntilRun
import Verif.Proofs.UntilStep
import Verif.Proofs.StepCover

/-!
# Properties C63, C64 with PREVIOUS interpolation
-/

namespace STLRom
namespace Props
open Signal Spec

/-! ## C63 `until` on a trace that covers its window -/

/-- The full claim for windows of positive length: on a covering trace with the comparisons within
`±B`, `eval_rob` returns the robustness of `until`. -/
def C63_previous_full : Prop := ∀ (g : Globals) (m : Monitor) (n : ℕ) (st : St) (l r : Tr) (I : Ival)
    (a b t : ℚ), BegunUntilStep n g.B m st l I r a b t → t + b ≤ lastTime m.data →
    ∃ g' m' v, m.evalRob1 g t = (g', m', .ok v) ∧
      rob .PREVIOUS m.data m.params (.untl st l I r) t = er v

/-- C63 with PREVIOUS interpolation, when the right operand does not jump exactly at the end of
the window.  The bounds behave as with LINEAR interpolation.  Missing: a jump there
(`C63_previous_false`), and the cases missing from `C63_partial`. -/
theorem C63_previous_partial (g : Globals) (m : Monitor) (n : ℕ) (st : St) (l r : Tr) (I : Ival) (a b t : ℚ)
    (h : BegunUntilStep n g.B m st l I r a b t) (hc : t + b ≤ lastTime m.data)
    (hr : Settles (rob .PREVIOUS m.data m.params r) (t + a) (t + b)) :
    ∃ g' m' v, m.evalRob1 g t = (g', m', .ok v) ∧
      rob .PREVIOUS m.data m.params (.untl st l I r) t = er v ∧
      ((rob .PREVIOUS m.data m.params r (t + a) = er (-g.B) → m'.lowerRob = -g.B) ∧
        (rob .PREVIOUS m.data m.params r (t + a) ≠ er (-g.B) → m'.lowerRob = v)) ∧
      ((rob .PREVIOUS m.data m.params l t = er g.B ∨ rob .PREVIOUS m.data m.params r (t + a) = er g.B →
          m'.upperRob = g.B) ∧
        (¬ (rob .PREVIOUS m.data m.params l t = er g.B ∨
            rob .PREVIOUS m.data m.params r (t + a) = er g.B) → m'.upperRob = v)) := by
  obtain ⟨g', m', v, h1, h2, h3⟩ := evalRob_until_step h
  refine ⟨g', m', v, h1, ?_, h3⟩
  rw [min_eq_left hc] at h2
  simp only [rob, h.opens, h.closes]
  rw [← h2]
  refine le_antisymm (iSup₂_le fun u hu => ?_) (iSup₂_le fun u hu =>
    le_iSup₂_of_le u ⟨hu.1, hu.2.le⟩ le_rfl)
  rcases hu.2.lt_or_eq with hlt | heq
  · exact le_iSup₂_of_le u ⟨hu.1, hlt⟩ le_rfl
  · obtain ⟨q, q1, q2, q3⟩ := hr (by linarith [h.window.2])
    refine le_iSup₂_of_le q ⟨q1, q2⟩ (inf_le_inf ?_ (le_iInf₂ fun w hw => iInf₂_le w ⟨hw.1, ?_⟩))
    · rw [heq, q3 q le_rfl q2.le]
    · rw [heq]; exact hw.2.trans q2.le

/-- Without conditions on jumps: what `eval_rob` returns is the robustness with the end of the
window left out, so it is never too high. -/
theorem C63_below_previous_partial (g : Globals) (m : Monitor) (n : ℕ) (st : St) (l r : Tr) (I : Ival)
    (a b t : ℚ) (h : BegunUntilStep n g.B m st l I r a b t) (hc : t + b ≤ lastTime m.data) :
    ∃ g' m' v, m.evalRob1 g t = (g', m', .ok v) ∧
      ⨆ u ∈ Set.Ico (t + a) (t + b), rob .PREVIOUS m.data m.params r u ⊓
        ⨅ w ∈ Set.Icc t u, rob .PREVIOUS m.data m.params l w = er v ∧
      er v ≤ rob .PREVIOUS m.data m.params (.untl st l I r) t := by
  obtain ⟨g', m', v, h1, h2, _⟩ := evalRob_until_step h
  rw [min_eq_left hc] at h2
  refine ⟨g', m', v, h1, h2, ?_⟩
  simp only [rob, h.opens, h.closes]
  rw [← h2]
  exact iSup₂_le fun u hu => le_iSup₂_of_le u ⟨hu.1, hu.2.le⟩ le_rfl

/-! ## C64 `until` on a partial trace -/

/-- The full claim: the bounds computed on the first rows bracket the robustness on every
covering trace that begins with them. -/
def C64_previous_full : Prop := ∀ (g g' : Globals) (m m' : Monitor) (n : ℕ) (st : St) (l r : Tr) (I : Ival)
    (a b t v : ℚ) (R : List (List ℚ)),
  BegunUntilStep n g.B m st l I r a b t → WellShaped n (m.data ++ R) → t + b ≤ lastTime (m.data ++ R) →
  AtomsWithin .PREVIOUS g.B (m.data ++ R) m.params t (t + b) l →
  AtomsWithin .PREVIOUS g.B (m.data ++ R) m.params (t + a) (t + b) r →
  m.evalRob1 g t = (g', m', .ok v) →
    er m'.lowerRob ≤ rob .PREVIOUS (m.data ++ R) m.params (.untl st l I r) t ∧
    rob .PREVIOUS (m.data ++ R) m.params (.untl st l I r) t ≤ er m'.upperRob

theorem begunUntilStep_ne {n : ℕ} {B : ℚ} {m : Monitor} {st : St} {l r : Tr} {I : Ival} {a b t : ℚ}
    (h : BegunUntilStep n B m st l I r a b t) : m.data ≠ [] := by
  obtain ⟨row, _, h1, _⟩ := h.first
  rintro h2
  rw [h2] at h1
  cases h1

/-- The lower half of C64 with PREVIOUS interpolation: the lower bound is at most the robustness
on every covering trace that begins with the rows of `m`, wherever the operands jump.  Missing: the
upper bound, which is not sound (`C64_previous_false`); rows that end before the window opens;
operands other than comparisons. -/
theorem C64_lower_previous_partial (g : Globals) (m : Monitor) (n : ℕ) (st : St) (l r : Tr) (I : Ival)
    (a b t : ℚ) (R : List (List ℚ)) (h : BegunUntilStep n g.B m st l I r a b t)
    (hw : WellShaped n (m.data ++ R))
    (hl : AtomsWithin .PREVIOUS g.B (m.data ++ R) m.params t (t + b) l)
    (hr : AtomsWithin .PREVIOUS g.B (m.data ++ R) m.params (t + a) (t + b) r) :
    ∃ g' m' v, m.evalRob1 g t = (g', m', .ok v) ∧
      ⨆ u ∈ Set.Ico (t + a) (min (t + b) (lastTime m.data)), rob .PREVIOUS m.data m.params r u ⊓
        ⨅ w ∈ Set.Icc t u, rob .PREVIOUS m.data m.params l w = er v ∧
      er m'.lowerRob ≤ rob .PREVIOUS (m.data ++ R) m.params (.untl st l I r) t := by
  obtain ⟨g', m', v, h1, h2, h3, _⟩ := evalRob_until_step h
  refine ⟨g', m', v, h1, h2, ?_⟩
  have hne := begunUntilStep_ne h
  have hab := h.window
  simp only [rob, h.opens, h.closes]
  by_cases hc : rob .PREVIOUS m.data m.params r (t + a) = er (-g.B)
  · rw [h3.1 hc]
    refine le_iSup₂_of_le (t + a) ⟨le_rfl, by linarith⟩ (le_inf ?_ (le_iInf₂ fun w hw => ?_))
    · exact atom_within_low h.atoms.2 hr le_rfl (by linarith)
    · exact atom_within_low h.atoms.1 hl hw.1 (by linarith [hw.2])
  · rw [h3.2 hc, ← h2]
    refine iSup₂_le fun u hu => le_iSup₂_of_le u ⟨hu.1, hu.2.le.trans (min_le_left _ _)⟩ ?_
    have hud := hu.2.le.trans (min_le_right _ _)
    rw [atom_same hne hw h.atoms.2 h.shape.2 hud]
    refine inf_le_inf le_rfl (le_iInf₂ fun w hw' => (iInf₂_le w hw').trans ?_)
    rw [atom_same hne hw h.atoms.1 h.shape.1 (hw'.2.trans hud)]

/-- The upper half of C64, when the left operand has already come down to the returned value within
the window: the upper bound is at least the robustness on every covering trace. -/
theorem C64_upper_previous_partial (g : Globals) (m : Monitor) (n : ℕ) (st : St) (l r : Tr) (I : Ival)
    (a b t : ℚ) (R : List (List ℚ)) (h : BegunUntilStep n g.B m st l I r a b t)
    (hw : WellShaped n (m.data ++ R))
    (hr : AtomsWithin .PREVIOUS g.B (m.data ++ R) m.params (t + a) (t + b) r) :
    ∃ g' m' v, m.evalRob1 g t = (g', m', .ok v) ∧
      ((∃ w, t ≤ w ∧ w ≤ min (t + b) (lastTime m.data) ∧ rob .PREVIOUS m.data m.params l w ≤ er v) →
        rob .PREVIOUS (m.data ++ R) m.params (.untl st l I r) t ≤ er m'.upperRob) := by
  obtain ⟨g', m', v, h1, h2, _, h3⟩ := evalRob_until_step h
  refine ⟨g', m', v, h1, ?_⟩
  rintro ⟨w0, k1, k2, k3⟩
  have hne := begunUntilStep_ne h
  simp only [rob, h.opens, h.closes]
  by_cases hc : rob .PREVIOUS m.data m.params l t = er g.B ∨ rob .PREVIOUS m.data m.params r (t + a) = er g.B
  · rw [h3.1 hc]
    exact iSup₂_le fun u hu => inf_le_left.trans (atom_within_up h.atoms.2 hr hu.1 hu.2)
  · rw [h3.2 hc]
    refine iSup₂_le fun u hu => ?_
    rcases lt_or_ge u (min (t + b) (lastTime m.data)) with hud | hud
    · rw [← h2]
      refine le_iSup₂_of_le u ⟨hu.1, hud⟩ ?_
      have hud' := hud.le.trans (min_le_right _ _)
      rw [atom_same hne hw h.atoms.2 h.shape.2 hud']
      refine inf_le_inf le_rfl (le_iInf₂ fun w hw' => (iInf₂_le w hw').trans ?_)
      rw [atom_same hne hw h.atoms.1 h.shape.1 (hw'.2.trans hud')]
    · refine inf_le_right.trans ((iInf₂_le w0 ⟨k1, k2.trans hud⟩).trans ?_)
      rw [← atom_same hne hw h.atoms.1 h.shape.1 (k2.trans (min_le_right _ _))]
      exact k3

/-- With more rows the lower bound does not go down. -/
theorem C64_tighten_previous_partial (g : Globals) (m : Monitor) (n : ℕ) (st : St) (l r : Tr) (I : Ival)
    (a b t : ℚ) (R : List (List ℚ)) (h : BegunUntilStep n g.B m st l I r a b t)
    (h' : BegunUntilStep n g.B { m with data := m.data ++ R } st l I r a b t) :
    ∃ g1 g2 m1 m2 v1 v2, m.evalRob1 g t = (g1, m1, .ok v1) ∧
      Monitor.evalRob1 g { m with data := m.data ++ R } t = (g2, m2, .ok v2) ∧
      v1 ≤ v2 ∧ m1.lowerRob ≤ m2.lowerRob := by
  obtain ⟨g1, m1, v1, h1, h2, h3, _⟩ := evalRob_until_step h
  obtain ⟨g2, m2, v2, k1, k2, k3, _⟩ := evalRob_until_step h'
  have hne := begunUntilStep_ne h
  have hw : WellShaped n (m.data ++ R) := h'.rows
  have hd : lastTime m.data ≤ lastTime (m.data ++ R) := by
    obtain ⟨last, q1, q2⟩ := lastTime_eq hne h.rows
    have := rowTime_le_last (begunUntilStep_ne h') hw last
      (List.mem_append_left _ (List.mem_of_getLast? q1))
    cases last <;> simp_all [rowTime]
  have hv : v1 ≤ v2 := by
    rw [← er_le, ← h2, ← k2]
    refine iSup₂_le fun u hu =>
      le_iSup₂_of_le u ⟨hu.1, hu.2.trans_le (min_le_min le_rfl hd)⟩ ?_
    have hud := hu.2.le.trans (min_le_right _ _)
    rw [atom_same hne hw h.atoms.2 h.shape.2 hud]
    refine inf_le_inf le_rfl (le_iInf₂ fun w hw' => (iInf₂_le w hw').trans ?_)
    rw [atom_same hne hw h.atoms.1 h.shape.1 (hw'.2.trans hud)]
  refine ⟨g1, g2, m1, m2, v1, v2, h1, k1, hv, ?_⟩
  have hra := atom_same (ip := .PREVIOUS) hne hw h.atoms.2 h.shape.2 h.reached.le
  by_cases hc : rob .PREVIOUS m.data m.params r (t + a) = er (-g.B)
  · rw [h3.1 hc, k3.1 (hra ▸ hc)]
  · rw [h3.2 hc, k3.2 (fun hx => hc (hra.trans hx))]
    exact hv

/-! ### Concrete traces -/

theorem xUy_begunStep {D : List (List ℚ)} {a b t t0 : ℚ} {row : List ℚ} {rest : List (List ℚ)}
    (hD : D = (t0 :: row) :: rest) (hr : WellShaped 2 D) (ht0 : t0 ≤ t) (ht : 0 ≤ t) (ha : 0 ≤ a)
    (hab : a < b) (hx : ∀ row ∈ D, |margin .greater (rowExpr [] row sx) (rowExpr [] row (num 0))| ≤ 10000)
    (hy : ∀ row ∈ D, |margin .greater (rowExpr [] row sy) (rowExpr [] row (num 0))| ≤ 10000)
    (h1 : t + a < lastTime D) (h2 : b ≤ lastTime D → t + b ≤ lastTime D) :
    BegunUntilStep 2 Globals.init.B (mon .PREVIOUS (xUy a b) D) .init (above sx 0) (lit a b) (above sy 0)
      a b t := by
  have hh : ∀ row, D.head? = some row → rowTime row ≤ t := by
    intro row' h
    rw [hD] at h
    simp only [List.head?_cons, Option.some.injEq] at h
    rw [← h]
    exact ht0
  have hne : D ≠ [] := by rw [hD]; simp
  refine ⟨rfl, rfl, rfl, rfl, hr, rfl, rfl, ⟨ha, hab⟩, ⟨trivial, trivial⟩,
    ⟨⟨⟨1, rfl, by decide, by decide⟩, trivial⟩, ⟨2, rfl, by decide, by decide⟩, trivial⟩,
    Or.inl ⟨trivial, trivial⟩, Or.inl ⟨trivial, trivial⟩, by decide +kernel, ?_, ?_, ht,
    ⟨_, t0, by show D.head? = _; rw [hD]; rfl, rfl, ht0⟩, h1, h2⟩
  · exact fun u h _ _ => prev_abs (n := 2) hh hne (k := .greater) (l := sx) (r := num 0)
      ⟨⟨1, rfl, by decide, by decide⟩, trivial⟩ hx u h
  · exact fun u h _ _ => prev_abs (n := 2) hh hne (k := .greater) (l := sy) (r := num 0)
      ⟨⟨2, rfl, by decide, by decide⟩, trivial⟩ hy u (le_trans (by linarith) h)

theorem cross_begunStep {k : ℕ} (hk : k = 3 ∨ k = 4) : BegunUntilStep 2 Globals.init.B
    (mon .PREVIOUS (xUy 1 4) (crossD.take k)) .init (above sx 0) (lit 1 4) (above sy 0) 1 4 0 := by
  have hr : WellShaped 2 (crossD.take k) :=
    wellShaped_prefix (R := crossD.drop k) (by rw [List.take_append_drop]; exact crossD_rows)
  rcases hk with rfl | rfl
  · exact xUy_begunStep rfl hr le_rfl le_rfl (by norm_num) (by norm_num) (by decide +kernel)
      (by decide +kernel) (by decide +kernel) (by decide +kernel)
  · exact xUy_begunStep rfl hr le_rfl le_rfl (by norm_num) (by norm_num) (by decide +kernel)
      (by decide +kernel) (by decide +kernel) (by decide +kernel)

theorem cross_withinStep : AtomsWithin .PREVIOUS Globals.init.B crossD [] 0 (0 + 4) (above sx 0) ∧
    AtomsWithin .PREVIOUS Globals.init.B crossD [] (0 + 1) (0 + 4) (above sy 0) := by
  have hh : ∀ row, crossD.head? = some row → rowTime row ≤ 0 := by
    intro row h
    simp only [crossD, List.head?_cons, Option.some.injEq] at h
    subst h
    decide +kernel
  constructor
  · exact fun u h _ => prev_abs (n := 2) hh (by decide) (k := .greater) (l := sx) (r := num 0)
      ⟨⟨1, rfl, by decide, by decide⟩, trivial⟩ (by decide +kernel) u h
  · exact fun u h _ => prev_abs (n := 2) hh (by decide) (k := .greater) (l := sy) (r := num 0)
      ⟨⟨2, rfl, by decide, by decide⟩, trivial⟩ (by decide +kernel) u (le_trans (by norm_num) h)

/-- `y` is 4 from time 3 to time 5, so it does not jump at 4. -/
theorem cross_settles : Settles (rob .PREVIOUS crossD [] (above sy 0)) (0 + 1) (0 + 4) := by
  intro _
  refine ⟨3, by norm_num, by norm_num, fun t h1 h2 => ?_⟩
  have key : ∀ u : ℚ, 3 ≤ u → u ≤ 4 → trace .PREVIOUS crossD 2 u = 4 := by
    intro u h1 h2
    have hc : column crossD 2 = [(0, -1), (2, 1), (3, 4), (5, 0)] := by decide +kernel
    simp only [trace]
    rw [hc]
    simp only [interp]
    split_ifs <;> first | rfl | (exfalso; linarith)
  show er (margin .greater (trace .PREVIOUS crossD 2 t) 0) = er (margin .greater (trace .PREVIOUS crossD 2 (0 + 4)) 0)
  rw [key t h1 (by linarith), key (0 + 4) (by norm_num) (by norm_num)]

example : rob .PREVIOUS crossD [] (xUy 1 4) 0 = er 1 := by
  obtain ⟨g', m', v, h1, h2, _⟩ := C63_previous_partial .init (mon .PREVIOUS (xUy 1 4) crossD) 2 .init
    (above sx 0) (above sy 0) (lit 1 4) 1 4 0 (cross_begunStep (Or.inr rfl)) (by decide +kernel) cross_settles
  have h3 : ((mon .PREVIOUS (xUy 1 4) crossD).evalRob1 .init 0).2.2 = .ok 1 := by decide +kernel
  rw [h1] at h3
  obtain rfl := Except.ok.inj h3
  exact h2

example : ∃ g' m' v, (mon .PREVIOUS (xUy 1 4) crossD).evalRob1 .init 0 = (g', m', .ok v) ∧
    er v ≤ rob .PREVIOUS crossD [] (xUy 1 4) 0 := by
  obtain ⟨g', m', v, h1, _, h2⟩ := C63_below_previous_partial .init (mon .PREVIOUS (xUy 1 4) crossD) 2 .init
    (above sx 0) (above sy 0) (lit 1 4) 1 4 0 (cross_begunStep (Or.inr rfl)) (by decide +kernel)
  exact ⟨g', m', v, h1, h2⟩

/-- The last known row is a jump of both operands. -/
example : ∃ g' m' v, (mon .PREVIOUS (xUy 1 4) (crossD.take 3)).evalRob1 .init 0 = (g', m', .ok v) ∧
    er m'.lowerRob ≤ rob .PREVIOUS crossD [] (xUy 1 4) 0 := by
  obtain ⟨g', m', v, h1, _, h2⟩ := C64_lower_previous_partial .init (mon .PREVIOUS (xUy 1 4) (crossD.take 3)) 2
    .init (above sx 0) (above sy 0) (lit 1 4) 1 4 0 (crossD.drop 3) (cross_begunStep (Or.inl rfl)) crossD_rows
    cross_withinStep.1 cross_withinStep.2
  exact ⟨g', m', v, h1, h2⟩

/-- The left operand is -2 at time 3, below the returned value 1. -/
example : ∃ g' m' v, (mon .PREVIOUS (xUy 1 4) (crossD.take 3)).evalRob1 .init 0 = (g', m', .ok v) ∧
    rob .PREVIOUS crossD [] (xUy 1 4) 0 ≤ er m'.upperRob := by
  obtain ⟨g', m', v, h1, h2⟩ := C64_upper_previous_partial .init (mon .PREVIOUS (xUy 1 4) (crossD.take 3)) 2
    .init (above sx 0) (above sy 0) (lit 1 4) 1 4 0 (crossD.drop 3) (cross_begunStep (Or.inl rfl)) crossD_rows
    cross_withinStep.2
  refine ⟨g', m', v, h1, h2 ⟨3, by norm_num, by decide +kernel, ?_⟩⟩
  have h3 : ((mon .PREVIOUS (xUy 1 4) (crossD.take 3)).evalRob1 .init 0).2.2 = .ok 1 := by decide +kernel
  rw [h1] at h3
  obtain rfl := Except.ok.inj h3
  refine er_le.2 ?_
  decide +kernel

example : ∃ g1 g2 m1 m2 v1 v2, (mon .PREVIOUS (xUy 1 4) (crossD.take 3)).evalRob1 .init 0 = (g1, m1, .ok v1) ∧
    (mon .PREVIOUS (xUy 1 4) crossD).evalRob1 .init 0 = (g2, m2, .ok v2) ∧ v1 ≤ v2 ∧
    m1.lowerRob ≤ m2.lowerRob :=
  C64_tighten_previous_partial .init (mon .PREVIOUS (xUy 1 4) (crossD.take 3)) 2 .init
    (above sx 0) (above sy 0) (lit 1 4) 1 4 0 (crossD.drop 3) (cross_begunStep (Or.inl rfl))
    (cross_begunStep (Or.inr rfl))

/-- `x` is 5 throughout; `y` jumps from -1 to 4 at time 2. -/
def edgeD : List (List ℚ) := [[0, 5, -1], [2, 5, 4], [3, 5, 4]]

theorem edgeD_rows : WellShaped 2 edgeD := by
  refine ⟨by decide +kernel, ?_⟩
  simp only [edgeD, List.pairwise_cons, List.mem_cons, List.not_mem_nil, or_false]
  simp
  norm_num

/-- C63 is false with PREVIOUS interpolation: `y` is 4 when the window of
`x > 0 until_[0,2] y > 0` ends, but the evaluation returns -1. -/
theorem C63_previous_false : ¬ C63_previous_full := by
  intro h
  obtain ⟨g', m', v, h1, h2⟩ := h .init (mon .PREVIOUS (xUy 0 2) edgeD) 2 .init (above sx 0) (above sy 0)
    (lit 0 2) 0 2 0 (xUy_begunStep rfl edgeD_rows le_rfl le_rfl le_rfl (by norm_num) (by decide +kernel)
      (by decide +kernel) (by decide +kernel) (by decide +kernel)) (by decide +kernel)
  have h3 : ((mon .PREVIOUS (xUy 0 2) edgeD).evalRob1 .init 0).2.2 = .ok (-1) := by decide +kernel
  rw [h1] at h3
  obtain rfl := Except.ok.inj h3
  have key : er 4 ≤ er (-1) := by
    rw [← h2]
    show er 4 ≤ ⨆ u ∈ Set.Icc ((0 : ℚ) + 0) (0 + 2), er (margin .greater (trace .PREVIOUS edgeD 2 u) 0) ⊓
      ⨅ w ∈ Set.Icc 0 u, er (margin .greater (trace .PREVIOUS edgeD 1 w) 0)
    refine le_iSup₂_of_le 2 ⟨by norm_num, by norm_num⟩ (le_inf ?_ (le_iInf₂ fun w hw => ?_))
    · exact er_le.2 (by decide +kernel)
    · have : trace .PREVIOUS edgeD 1 w = 5 := by
        have hc : column edgeD 1 = [(0, 5), (2, 5), (3, 5)] := by decide +kernel
        simp only [trace]
        rw [hc]
        simp only [interp]
        split_ifs <;> first | rfl | (exfalso; linarith [hw.1, hw.2])
      rw [this]
      exact er_le.2 (by decide +kernel)
  exact absurd (er_le.1 key) (by norm_num)

/-- `y` is 4 from time 3 on, and the window of `until_[0,10]` ends at 10. -/
theorem lateD_settles : Settles (rob .PREVIOUS lateD [] (above sy 0)) (0 + 0) (0 + 10) := by
  intro _
  refine ⟨3, by norm_num, by norm_num, fun t h1 h2 => ?_⟩
  have key : ∀ u : ℚ, 3 ≤ u → u ≤ 10 → trace .PREVIOUS lateD 2 u = 4 := by
    intro u h1 h2
    have hc : column lateD 2 = [(0, -1), (2, -1), (3, 4), (12, 4)] := by decide +kernel
    simp only [trace]
    rw [hc]
    simp only [interp]
    split_ifs <;> first | rfl | (exfalso; linarith)
  show er (margin .greater (trace .PREVIOUS lateD 2 t) 0) = er (margin .greater (trace .PREVIOUS lateD 2 (0 + 10)) 0)
  rw [key t h1 (by linarith), key (0 + 10) (by norm_num) (by norm_num)]

/-- C64 is false with PREVIOUS interpolation: with the rows up to time 2 the upper bound of
`x > 0 until_[0,10] y > 0` is -1; on the whole trace the robustness is 4. -/
theorem C64_previous_false : ¬ C64_previous_full := by
  intro h
  have hh : ∀ row, lateD.head? = some row → rowTime row ≤ 0 := by
    intro row h
    simp only [lateD, List.head?_cons, Option.some.injEq] at h
    subst h
    decide +kernel
  have h1 := (h .init ((mon .PREVIOUS (xUy 0 10) (lateD.take 2)).evalRob1 .init 0).1
    (mon .PREVIOUS (xUy 0 10) (lateD.take 2)) ((mon .PREVIOUS (xUy 0 10) (lateD.take 2)).evalRob1 .init 0).2.1 2
    .init (above sx 0) (above sy 0) (lit 0 10) 0 10 0 (-1) (lateD.drop 2)
    (xUy_begunStep rfl (wellShaped_prefix (R := lateD.drop 2) (by rw [List.take_append_drop]; exact lateD_rows))
      le_rfl le_rfl (by norm_num) (by norm_num) (by decide +kernel) (by decide +kernel)
      (by decide +kernel) (by decide +kernel)) lateD_rows (by decide +kernel)
    (fun u h _ => prev_abs (n := 2) hh (by decide) (k := .greater) (l := sx) (r := num 0)
      ⟨⟨1, rfl, by decide, by decide⟩, trivial⟩ (by decide +kernel) u h)
    (fun u h _ => prev_abs (n := 2) hh (by decide) (k := .greater) (l := sy) (r := num 0)
      ⟨⟨2, rfl, by decide, by decide⟩, trivial⟩ (by decide +kernel) u (le_trans (by norm_num) h))
    (Prod.ext rfl (Prod.ext rfl (by decide +kernel)))).2
  rw [show ((mon .PREVIOUS (xUy 0 10) (lateD.take 2)).evalRob1 .init 0).2.1.upperRob = -1 from by
    decide +kernel] at h1
  obtain ⟨g', m', v, k1, k2, _⟩ := C63_previous_partial .init (mon .PREVIOUS (xUy 0 10) lateD) 2 .init (above sx 0)
    (above sy 0) (lit 0 10) 0 10 0
    (xUy_begunStep rfl lateD_rows le_rfl le_rfl (by norm_num) (by norm_num) (by decide +kernel)
      (by decide +kernel) (by decide +kernel) (by decide +kernel)) (by decide +kernel) lateD_settles
  have k3 : ((mon .PREVIOUS (xUy 0 10) lateD).evalRob1 .init 0).2.2 = .ok 4 := by decide +kernel
  rw [k1] at k3
  obtain rfl := Except.ok.inj k3
  rw [show rob .PREVIOUS ((mon .PREVIOUS (xUy 0 10) (lateD.take 2)).data ++ lateD.drop 2)
    (mon .PREVIOUS (xUy 0 10) (lateD.take 2)).params (.untl .init (above sx 0) (lit 0 10) (above sy 0)) 0 = er 4
    from k2, er_le] at h1
  norm_num at h1

end Props
end STLRom
