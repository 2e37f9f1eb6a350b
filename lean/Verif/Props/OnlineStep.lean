import Verif.Proofs.StepCover
import Verif.Props.Step

/-!
# Properties C21, C25, C26, C27, C28, C62 with PREVIOUS interpolation

In SPACE mode, for formulas without `until`.
-/

namespace STLRom
namespace Props
open Signal Spec

/-! ## C62 the bounds on a partial trace are those of the interval semantics -/

/-- The full claim. -/
def C62_previous_full : Prop := ∀ (g g' : Globals) (m m' : Monitor) (n : ℕ) (T : Tr) (t0 v : ℚ),
  Begun .PREVIOUS n g.B m T t0 t0 → PlainAtoms T → m.evalRob1 g t0 = (g', m', .ok v) →
    robBound .PREVIOUS g.B m.data m.params true t0 t0 T t0 = er m'.lowerRob ∧
    robBound .PREVIOUS g.B m.data m.params false t0 t0 T t0 = er m'.upperRob

/-- C62 for every until-free formula: the evaluation returns, and each bound that meets
`StepSound` is the one of the interval semantics.  Missing: the cases `StepSound` excludes
(`C62_previous_false`) and `until`. -/
theorem C62_previous_partial (g : Globals) (m : Monitor) (n : ℕ) (T : Tr) (s e : ℚ)
    (h : Begun .PREVIOUS n g.B m T s e) (hk : AtomsStepTo m.data m.params s e T) :
    ∃ g' m' v, m.evalRob g s e = (g', m', .ok v) ∧
      (StepSound g.B m.data m.params true s e T →
        robBound .PREVIOUS g.B m.data m.params true s e T s = er m'.lowerRob) ∧
      (StepSound g.B m.data m.params false s e T →
        robBound .PREVIOUS g.B m.data m.params false s e T s = er m'.upperRob) := by
  obtain ⟨g', m', v, h1, h2⟩ := evalRob_step_bounds h hk
  exact ⟨g', m', v, h1, fun h => h2 true h, fun h => h2 false h⟩

/-- At one time, with one level of temporal operators, two conditions are enough. -/
theorem C62_shallow_previous_partial (g : Globals) (m : Monitor) (n : ℕ) (T : Tr) (t0 : ℚ)
    (h : Begun .PREVIOUS n g.B m T t0 t0) (hp : PlainAtoms T) (hw : Shallow false T) :
    ∃ g' m' v, m.evalRob1 g t0 = (g', m', .ok v) ∧
      (Started (lastTime m.data) m.params true t0 T → OffEdge (lastTime m.data) m.params true t0 t0 T →
        robBound .PREVIOUS g.B m.data m.params true t0 t0 T t0 = er m'.lowerRob) ∧
      (Started (lastTime m.data) m.params false t0 T → OffEdge (lastTime m.data) m.params false t0 t0 T →
        robBound .PREVIOUS g.B m.data m.params false t0 t0 T t0 = er m'.upperRob) := by
  obtain ⟨g', m', v, h1, h2, h3⟩ := C62_previous_partial g m n T t0 t0 h (plain_stepTo _ _ hp)
  have hl := shallow_sound (B := g.B) (D := m.data) (p := true) (s := t0) (e := t0) h.shape hw fun _ => rfl
  have hu := shallow_sound (B := g.B) (D := m.data) (p := false) (s := t0) (e := t0) h.shape hw fun _ => rfl
  exact ⟨g', m', v, h1, fun a b => h2 ⟨a, b, hl.2, hl.1⟩, fun a b => h3 ⟨a, b, hu.2, hu.1⟩⟩

/-! ## C25, C26 the bounds hold on every completion -/

/-- The full claim for the until-free fragment over atoms that compare signals and constants. -/
def C25_previous_full : Prop := ∀ (g g' : Globals) (m m' : Monitor) (n : ℕ) (T : Tr) (t0 v : ℚ)
    (R : List (List ℚ)),
  m.data ≠ [] → Ready .PREVIOUS n g.B { m with data := m.data ++ R } T t0 t0 → PlainAtoms T →
    m.evalRob1 g t0 = (g', m', .ok v) →
    er m'.lowerRob ≤ rob .PREVIOUS (m.data ++ R) m.params T t0

/-- The full claim for the upper bound. -/
def C26_previous_full : Prop := ∀ (g g' : Globals) (m m' : Monitor) (n : ℕ) (T : Tr) (t0 v : ℚ)
    (R : List (List ℚ)),
  m.data ≠ [] → Ready .PREVIOUS n g.B { m with data := m.data ++ R } T t0 t0 → PlainAtoms T →
    m.evalRob1 g t0 = (g', m', .ok v) →
    rob .PREVIOUS (m.data ++ R) m.params T t0 ≤ er m'.upperRob

/-- C25 for every until-free formula: the lower bound computed on the first rows of a covering
trace is at most the robustness on the whole trace, if it meets `StepSound`.  Missing: the cases
`StepSound` excludes (`C25_previous_false`) and `until`. -/
theorem C25_previous_partial (g : Globals) (m : Monitor) (n : ℕ) (T : Tr) (s e : ℚ) (R : List (List ℚ))
    (hne : m.data ≠ []) (h : Ready .PREVIOUS n g.B { m with data := m.data ++ R } T s e)
    (hk : AtomsStepTo m.data m.params s e T) (hS : StepSound g.B m.data m.params true s e T) :
    ∃ g' m' v, m.evalRob g s e = (g', m', .ok v) ∧
      er m'.lowerRob ≤ rob .PREVIOUS (m.data ++ R) m.params T s := by
  have hb := begun_prefix hne h
  obtain ⟨g', m', v, h1, h2⟩ := evalRob_step_bounds hb hk
  refine ⟨g', m', v, h1, ?_⟩
  rw [show er m'.lowerRob = _ from (h2 true hS).symm]
  exact (bound_sound (fun i t ht => trace_upto hb.rows h.rows (same_prefix hne h.rows) i ht) T h.stop h.shape
    h.within s le_rfl (known_mem T h.stop h.shape).1).1 rfl

/-- C26 in the same way. -/
theorem C26_previous_partial (g : Globals) (m : Monitor) (n : ℕ) (T : Tr) (s e : ℚ) (R : List (List ℚ))
    (hne : m.data ≠ []) (h : Ready .PREVIOUS n g.B { m with data := m.data ++ R } T s e)
    (hk : AtomsStepTo m.data m.params s e T) (hS : StepSound g.B m.data m.params false s e T) :
    ∃ g' m' v, m.evalRob g s e = (g', m', .ok v) ∧
      rob .PREVIOUS (m.data ++ R) m.params T s ≤ er m'.upperRob := by
  have hb := begun_prefix hne h
  obtain ⟨g', m', v, h1, h2⟩ := evalRob_step_bounds hb hk
  refine ⟨g', m', v, h1, ?_⟩
  rw [show er m'.upperRob = _ from (h2 false hS).symm]
  exact (bound_sound (fun i t ht => trace_upto hb.rows h.rows (same_prefix hne h.rows) i ht) T h.stop h.shape
    h.within s le_rfl (known_mem T h.stop h.shape).1).2 rfl

/-- C25 and C26 at one time, with one level of temporal operators. -/
theorem C25_C26_shallow_previous_partial (g : Globals) (m : Monitor) (n : ℕ) (T : Tr) (t0 : ℚ)
    (R : List (List ℚ)) (hne : m.data ≠ [])
    (h : Ready .PREVIOUS n g.B { m with data := m.data ++ R } T t0 t0)
    (hp : PlainAtoms T) (hw : Shallow false T)
    (hs : ∀ p, Started (lastTime m.data) m.params p t0 T)
    (ho : ∀ p, OffEdge (lastTime m.data) m.params p t0 t0 T) :
    ∃ g' m' v, m.evalRob1 g t0 = (g', m', .ok v) ∧
      er m'.lowerRob ≤ rob .PREVIOUS (m.data ++ R) m.params T t0 ∧
      rob .PREVIOUS (m.data ++ R) m.params T t0 ≤ er m'.upperRob := by
  have hn : ∀ p, StepSound g.B m.data m.params p t0 t0 T := fun p =>
    have := shallow_sound (B := g.B) (D := m.data) (p := p) (s := t0) (e := t0) h.shape hw fun _ => rfl
    ⟨hs p, ho p, this.2, this.1⟩
  obtain ⟨g', m', v, h1, h2⟩ := C25_previous_partial g m n T t0 t0 R hne h (plain_stepTo _ _ hp) (hn true)
  obtain ⟨g2, m2, v2, h3, h4⟩ := C26_previous_partial g m n T t0 t0 R hne h (plain_stepTo _ _ hp) (hn false)
  rw [h1] at h3
  have hm : m' = m2 := congrArg (fun x => x.2.1) h3
  exact ⟨g', m', v, h1, h2, hm ▸ h4⟩

/-! ## C27 more samples tighten the bounds -/

/-- The full claim for the until-free fragment over atoms that compare signals and constants. -/
def C27_previous_full : Prop := ∀ (g g1 g2 : Globals) (m m1 m2 : Monitor) (n : ℕ) (T : Tr) (t0 v1 v2 : ℚ)
    (R1 R2 : List (List ℚ)),
  m.data ≠ [] → Ready .PREVIOUS n g.B { m with data := m.data ++ R1 ++ R2 } T t0 t0 →
    PlainAtoms T → m.evalRob1 g t0 = (g1, m1, .ok v1) →
    Monitor.evalRob1 g { m with data := m.data ++ R1 } t0 = (g2, m2, .ok v2) →
    m1.lowerRob ≤ m2.lowerRob ∧ m2.upperRob ≤ m1.upperRob

/-- C27 for every until-free formula, as C25. -/
theorem C27_previous_partial (g : Globals) (m : Monitor) (n : ℕ) (T : Tr) (s e : ℚ) (R1 R2 : List (List ℚ))
    (hne : m.data ≠ []) (h : Ready .PREVIOUS n g.B { m with data := m.data ++ R1 ++ R2 } T s e)
    (hk : AtomsStepTo m.data m.params s e T) (hk' : AtomsStepTo (m.data ++ R1) m.params s e T) :
    ∃ g1 g2 m1 m2 v1 v2, m.evalRob g s e = (g1, m1, .ok v1) ∧
      Monitor.evalRob g { m with data := m.data ++ R1 } s e = (g2, m2, .ok v2) ∧
      (StepSound g.B m.data m.params true s e T → StepSound g.B (m.data ++ R1) m.params true s e T →
        m1.lowerRob ≤ m2.lowerRob) ∧
      (StepSound g.B m.data m.params false s e T → StepSound g.B (m.data ++ R1) m.params false s e T →
        m2.upperRob ≤ m1.upperRob) := by
  have hb1 : Begun .PREVIOUS n g.B m T s e :=
    begun_prefix (R := R1 ++ R2) hne (by rw [← List.append_assoc]; exact h)
  have hb2 : Begun .PREVIOUS n g.B { m with data := m.data ++ R1 } T s e :=
    begun_prefix (m := { m with data := m.data ++ R1 }) (R := R2) (by simp [hne]) h
  obtain ⟨g1, m1, v1, h1, h2⟩ := evalRob_step_bounds hb1 hk
  obtain ⟨g2, m2, v2, h3, h4⟩ := evalRob_step_bounds hb2 hk'
  have mono := fun p => bound_mono (P := m.params) hb1.big (lastTime_mono hne hb2.rows)
    (fun i t ht => trace_upto hb1.rows hb2.rows (same_prefix hne hb2.rows) i ht) T (p := p) h.stop h.shape
    hb2.within s le_rfl (known_mem T h.stop h.shape).1
  refine ⟨g1, g2, m1, m2, v1, v2, h1, h3, fun a b => ?_, fun a b => ?_⟩
  · have := (mono true).1 rfl
    rw [h2 true a, show robBound .PREVIOUS g.B (m.data ++ R1) m.params true s e T s = _ from h4 true b, er_le] at this
    exact this
  · have := (mono false).2 rfl
    rw [h2 false a, show robBound .PREVIOUS g.B (m.data ++ R1) m.params false s e T s = _ from h4 false b, er_le] at this
    exact this

/-! ## C28 the bounds meet on a covering trace -/

/-- The full claim. -/
def C28_previous_full : Prop := ∀ (g g' : Globals) (m m' : Monitor) (n : ℕ) (T : Tr) (t0 v : ℚ),
  Ready .PREVIOUS n g.B m T t0 t0 → PlainAtoms T → m.evalRob1 g t0 = (g', m', .ok v) →
    m'.lowerRob = v ∧ m'.upperRob = v

/-- C28 for formulas that meet `StepOk` and `Untrimmed`: both bounds are the robustness.
Missing: the others, for which it fails (`C28_previous_false`). -/
theorem C28_previous_partial (g : Globals) (m : Monitor) (n : ℕ) (T : Tr) (s e : ℚ)
    (h : Ready .PREVIOUS n g.B m T s e) (hk : StepOk m.data m.params s e T)
    (hu : Untrimmed m.params s e T) :
    ∃ g' m' v, m.evalRob g s e = (g', m', .ok v) ∧ rob .PREVIOUS m.data m.params T s = er v ∧
      m'.lowerRob = v ∧ m'.upperRob = v := by
  have hne : m.data ≠ [] := by
    obtain ⟨row, t, k, _⟩ := h.covers.1; rintro e; rw [e] at k; simp at k
  have hb : Begun .PREVIOUS n g.B m T s e :=
    begun_prefix (R := []) hne (by rw [List.append_nil]; exact h)
  obtain ⟨g', m', v, h1, h2⟩ := evalRob_step_bounds hb (stepOk_to T hk)
  have hl := covers_last h.covers
  have hv := evalRob_step h hk h1
  have hbd := fun p => (bound_covers (ip := .PREVIOUS) (B := g.B) T (p := p) h.stop h.shape hl s le_rfl
    h.stop).symm.trans (h2 p (stepSound_covers T h.stop h.shape hl hk hu))
  exact ⟨g', m', v, h1, hv, (er_inj (hv.symm.trans (hbd true))).symm, (er_inj (hv.symm.trans (hbd false))).symm⟩

/-! ## C21 the whole robustness signal -/

/-- After `eval_rob(s, e)` the number returned and the signal of `get_signal` are those of the
semantics. -/
def StepSignalRight (g : Globals) (m : Monitor) (T : Tr) (s e : ℚ) : Prop :=
  ∃ g' m' v z, m.evalRob g s e = (g', m', .ok v) ∧ m'.getSignal = .ok z ∧
    z.beginTime = s ∧ z.endTime = e ∧ value z s = some v ∧
    ∀ t, s ≤ t → t ≤ e → ∃ w, value z t = some w ∧ rob .PREVIOUS m.data m.params T t = er w

/-- The full claim for the until-free fragment over atoms that compare signals and constants. -/
def C21_previous_full : Prop := ∀ (g : Globals) (m : Monitor) (n : ℕ) (T : Tr) (s e : ℚ),
  Ready .PREVIOUS n g.B m T s e → PlainAtoms T → StepSignalRight g m T s e

/-- C21 for formulas that meet `StepOk`.  Missing: the others, for which it fails
(`C21_previous_false`). -/
theorem C21_previous_partial (g : Globals) (m : Monitor) (n : ℕ) (T : Tr) (s e : ℚ)
    (h : Ready .PREVIOUS n g.B m T s e) (hk : StepOk m.data m.params s e T) :
    StepSignalRight g m T s e := by
  obtain ⟨g', m', v, z, h1, _, h2, h4, h5, h6⟩ := evalRob_step_signal h hk
  have hv : ∀ t, s ≤ t → value z t = some (z.v (pl t)) := fun t a =>
    h4.wf'.value (by rw [h4.b]; exact a)
  exact ⟨g', m', v, z, h1, h2, h4.b, h4.e, by rw [hv s le_rfl, h6], fun t a b => ⟨_, hv t a, h5 t a b⟩⟩

/-- C21 for all nestings of temporal operators and negations over comparisons of signals and
constants. -/
theorem C21_nested_previous_partial (g : Globals) (m : Monitor) (n : ℕ) (T : Tr) (s e : ℚ)
    (h : Ready .PREVIOUS n g.B m T s e) (ha : PlainAtoms T) (hj : JoinsOutside true T) :
    StepSignalRight g m T s e :=
  C21_previous_partial g m n T s e h (stepOk_plain _ _ T true _ _ ha hj fun h => nomatch h)

/-! ## Examples and counterexamples -/

theorem b_begin (a b : ℚ) : bound [] (lit a b).beginStr (lit a b).begin = a := rfl
theorem b_stop (a b : ℚ) : bound [] (lit a b).stopStr (lit a b).stop = b := rfl

/-- `x` goes up and down. -/
def hopD : List (List ℚ) := [[0, -1, 0], [1, 2, 0], [3 / 2, -3, 0], [4, 5, 0]]

theorem hop_ready : Ready .PREVIOUS 2 Globals.init.B (mon .PREVIOUS nestF hopD) nestF 0 0 := by
  have hr : WellShaped 2 hopD := by
    refine ⟨by decide +kernel, ?_⟩
    simp only [hopD, List.pairwise_cons, List.mem_cons, List.not_mem_nil, or_false]
    simp
    norm_num
  have hh : ∀ row, hopD.head? = some row → rowTime row ≤ 0 := by
    intro row h
    simp only [hopD, List.head?_cons, Option.some.injEq] at h
    subst h
    decide +kernel
  refine ⟨rfl, rfl, rfl, rfl, hr, ?_, ?_, le_rfl, le_rfl, ?_⟩
  · refine ⟨by decide +kernel, by decide +kernel, by decide +kernel, by decide +kernel,
      ⟨1, rfl, by decide, by decide⟩, trivial⟩
  · exact fun t h _ => prev_abs (n := 2) hh (by decide) (k := .greater) (l := sx)
      (r := num 0) ⟨⟨1, rfl, by decide, by decide⟩, trivial⟩ (by decide +kernel) t (le_trans (by decide +kernel) h)
  · exact ⟨⟨_, 0, rfl, rfl, by decide +kernel⟩, ⟨_, 4, rfl, rfl, by decide +kernel⟩⟩

theorem hop_sound {D : List (List ℚ)} (hD : D = hopD.take 2 ∨ D = hopD.take 3) (p : Bool) :
    StepSound Globals.init.B D [] p 0 0 nestF := by
  have hl : lastTime D = 1 ∨ lastTime D = 3 / 2 := by
    rcases hD with rfl | rfl
    · exact Or.inl (by decide +kernel)
    · exact Or.inr (by decide +kernel)
  have hd1 : 1 ≤ lastTime D := by rcases hl with h | h <;> linarith
  have hd2 : lastTime D ≤ 3 / 2 := by rcases hl with h | h <;> linarith
  have hk : known (lastTime D) [] p 0 4 (above sx 0) = lastTime D := by
    simp only [above, known]
    rw [min_eq_right (by linarith), max_eq_right (by linarith)]
  have hk2 : known (lastTime D) [] p 0 2 (evT 0 2 (above sx 0)) = if p then lastTime D else 0 := by
    simp only [evT, known, b_begin, b_stop]
    norm_num
    rw [hk]
    cases p
    · simp only [Bool.false_eq_true, if_false]
      rw [min_eq_right (by linarith), max_eq_left (by linarith)]
    · simp only [if_true]
      rw [min_eq_right (by linarith)]
  have hk3 : (if p then lastTime D else 0) ≤ 3 / 2 := by cases p <;> simp <;> linarith
  refine ⟨?_, ?_, ?_, ?_⟩
  · simp only [nestF, alwT, evT, above, Started, b_begin]
    right; linarith
  · simp only [nestF, alwT, OffEdge, b_begin, b_stop]
    norm_num
    rw [hk2]
    refine ⟨?_, fun _ => by linarith⟩
    simp only [evT, OffEdge, b_begin, b_stop]
    norm_num
    rw [hk]
    exact ⟨trivial, fun _ => by linarith⟩
  · simp only [nestF, alwT, evT, Uncut, b_begin, b_stop]
    norm_num
    trivial
  · simp only [nestF, alwT, evT, above, StepBound, b_begin, b_stop, IsAtom]
    refine ⟨⟨trivial, fun _ _ _ h => ?_⟩, fun _ _ h h' => ?_⟩
    · rcases h with h | h
      · exact absurd trivial h.1
      · exact absurd h.2 (lt_irrefl _)
    · linarith

/-- With data up to time 1 or 3/2, on the way to time 4. -/
example : ∃ g' m' v, (mon .PREVIOUS nestF (hopD.take 2)).evalRob .init 0 0 = (g', m', .ok v) ∧
    er m'.lowerRob ≤ rob .PREVIOUS hopD [] nestF 0 :=
  C25_previous_partial .init (mon .PREVIOUS nestF (hopD.take 2)) 2 nestF 0 0 (hopD.drop 2) (by decide +kernel)
    hop_ready (plain_stepTo _ _ ⟨trivial, trivial⟩) (hop_sound (Or.inl rfl) true)

example : ∃ g' m' v, (mon .PREVIOUS nestF (hopD.take 3)).evalRob .init 0 0 = (g', m', .ok v) ∧
    rob .PREVIOUS hopD [] nestF 0 ≤ er m'.upperRob :=
  C26_previous_partial .init (mon .PREVIOUS nestF (hopD.take 3)) 2 nestF 0 0 (hopD.drop 3) (by decide +kernel)
    hop_ready (plain_stepTo _ _ ⟨trivial, trivial⟩) (hop_sound (Or.inr rfl) false)

example : ∃ g1 g2 m1 m2 v1 v2, (mon .PREVIOUS nestF (hopD.take 2)).evalRob .init 0 0 = (g1, m1, .ok v1) ∧
    (mon .PREVIOUS nestF (hopD.take 3)).evalRob .init 0 0 = (g2, m2, .ok v2) ∧
    m1.lowerRob ≤ m2.lowerRob ∧ m2.upperRob ≤ m1.upperRob := by
  obtain ⟨g1, g2, m1, m2, v1, v2, h1, h2, h3, h4⟩ := C27_previous_partial .init
    (mon .PREVIOUS nestF (hopD.take 2)) 2 nestF 0 0
    [[3 / 2, -3, 0]] [[4, 5, 0]] (by decide +kernel) hop_ready (plain_stepTo _ _ ⟨trivial, trivial⟩)
    (plain_stepTo _ _ ⟨trivial, trivial⟩)
  exact ⟨g1, g2, m1, m2, v1, v2, h1, h2, h3 (hop_sound (Or.inl rfl) true) (hop_sound (Or.inr rfl) true),
    h4 (hop_sound (Or.inl rfl) false) (hop_sound (Or.inr rfl) false)⟩

/-- Rows for `ev_[0,1] (x > 0 and y > 0)`: the last row before time 1 brings no jump. -/
def calmD : List (List ℚ) := [[0, -1, -1], [1 / 2, 2, 1], [3 / 4, 2, 1]]

theorem calm_begun : Begun .PREVIOUS 2 Globals.init.B (mon .PREVIOUS jumpF calmD) jumpF 0 0 := by
  have hr : WellShaped 2 calmD := by
    refine ⟨by decide +kernel, ?_⟩
    simp only [calmD, List.pairwise_cons, List.mem_cons, List.not_mem_nil, or_false]
    simp
    norm_num
  have hh : ∀ row, calmD.head? = some row → rowTime row ≤ 0 := by
    intro row h
    simp only [calmD, List.head?_cons, Option.some.injEq] at h
    subst h
    decide +kernel
  refine ⟨rfl, rfl, rfl, rfl, hr, ?_, by decide +kernel, ⟨?_, ?_⟩, le_rfl, le_rfl,
    ⟨_, 0, rfl, rfl, by decide +kernel⟩⟩
  · exact ⟨show (0 : ℚ) ≤ 0 by decide +kernel, show (0 : ℚ) ≤ 1 by decide +kernel, ⟨⟨1, rfl, by decide, by decide⟩, trivial⟩,
      ⟨2, rfl, by decide, by decide⟩, trivial⟩
  · exact fun t h _ _ => prev_abs (n := 2) hh (by decide) (k := .greater) (l := sx)
      (r := num 0) ⟨⟨1, rfl, by decide, by decide⟩, trivial⟩ (by decide +kernel) t (le_trans (by decide +kernel) h)
  · exact fun t h _ _ => prev_abs (n := 2) hh (by decide) (k := .greater) (l := sy)
      (r := num 0) ⟨⟨2, rfl, by decide, by decide⟩, trivial⟩ (by decide +kernel) t (le_trans (by decide +kernel) h)

theorem calm_x (i : ℕ) (u v : ℚ) (hc : column calmD i = [(0, u), (1 / 2, v), (3 / 4, v)]) (t : ℚ)
    (h : 1 / 2 ≤ t) : trace .PREVIOUS calmD i t = v := by
  simp only [trace]
  rw [hc]
  simp only [interp, if_neg (show ¬ t < 0 by linarith), if_neg (show ¬ t < 1 / 2 by linarith)]
  split_ifs <;> first | rfl | (exfalso; linarith)

theorem calm_sound (p : Bool) : StepSound Globals.init.B calmD [] p 0 0 jumpF := by
  have hl : lastTime calmD = 3 / 4 := by decide +kernel
  have hk : max (0 : ℚ) (min 1 (3 / 4)) = 3 / 4 := by norm_num
  have hkn : ∀ st k l r, known (3 / 4) [] p 0 1 (.atom st k l r) = 3 / 4 := fun _ _ _ _ => hk
  refine ⟨?_, ?_, ?_, ?_⟩
  · rw [hl]
    simp only [jumpF, evT, above, Started, b_begin]
    exact ⟨Or.inr (by norm_num), Or.inr (by norm_num)⟩
  · rw [hl]
    simp only [jumpF, evT, above, OffEdge, b_begin, b_stop, known]
    norm_num
  · rw [hl]
    exact ⟨⟨trivial, trivial⟩, fun h => h.elim⟩
  · simp only [jumpF, evT, StepBound, b_begin, b_stop, hl]
    rw [show (0 : ℚ) + 0 = 0 by norm_num, show (0 : ℚ) + 1 = 1 by norm_num]
    simp only [above, StepBound, hkn, min_self, IsAtom]
    refine ⟨⟨trivial, trivial, fun _ => ?_, fun _ => ?_⟩, fun _ _ h => ?_⟩
    · refine ⟨1 / 2, by norm_num, by norm_num, fun t h1 _ => ?_⟩
      simp only [robBound, hl]
      rw [if_neg (by norm_num), if_neg (by norm_num)]
      show er (trace .PREVIOUS calmD 1 t - 0) = er (trace .PREVIOUS calmD 1 (3 / 4) - 0)
      rw [calm_x 1 (-1) 2 (by decide +kernel) t h1, calm_x 1 (-1) 2 (by decide +kernel) _ (by norm_num)]
    · refine ⟨1 / 2, by norm_num, by norm_num, fun t h1 _ => ?_⟩
      simp only [robBound, hl]
      rw [if_neg (by norm_num), if_neg (by norm_num)]
      show er (trace .PREVIOUS calmD 2 t - 0) = er (trace .PREVIOUS calmD 2 (3 / 4) - 0)
      rw [calm_x 2 (-1) 1 (by decide +kernel) t h1, calm_x 2 (-1) 1 (by decide +kernel) _ (by norm_num)]
    · exfalso
      simp only [known] at h
      norm_num at h

/-- The bounds 1 and 10000 of `ev_[0,1] (x > 0 and y > 0)` after data up to time 3/4. -/
example : robBound .PREVIOUS Globals.init.B calmD [] true 0 0 jumpF 0 = er 1 ∧
    robBound .PREVIOUS Globals.init.B calmD [] false 0 0 jumpF 0 = er 10000 := by
  obtain ⟨g', m', v, h1, h2, h3⟩ := C62_previous_partial .init _ 2 jumpF 0 0 calm_begun
    (plain_stepTo _ _ ⟨⟨trivial, trivial⟩, trivial, trivial⟩)
  have h2 := h2 (calm_sound true)
  have h3 := h3 (calm_sound false)
  have e : m' = ((mon .PREVIOUS jumpF calmD).evalRob .init 0 0).2.1 := by rw [h1]
  rw [e, show ((mon .PREVIOUS jumpF calmD).evalRob .init 0 0).2.1.lowerRob = 1 by decide +kernel] at h2
  rw [e, show ((mon .PREVIOUS jumpF calmD).evalRob .init 0 0).2.1.upperRob = 10000 by decide +kernel] at h3
  exact ⟨h2, h3⟩

/-- `alw_[0,2] x > 0 and ev_[1,3] not (y > 0)`. -/
def levelF : Tr := .and .init (alwT 0 2 (above sx 0)) (evT 1 3 (.not .init (above sy 0)))

def levelD : List (List ℚ) := [[0, 2, 1], [1, 3, -4], [3, 4, 1]]

theorem level_ready : Ready .PREVIOUS 2 Globals.init.B (mon .PREVIOUS levelF levelD) levelF 0 0 := by
  have hr : WellShaped 2 levelD := by
    refine ⟨by decide +kernel, ?_⟩
    simp only [levelD, List.pairwise_cons, List.mem_cons, List.not_mem_nil, or_false]
    simp
  have hh : ∀ row, levelD.head? = some row → rowTime row ≤ 0 := by
    intro row h
    simp only [levelD, List.head?_cons, Option.some.injEq] at h
    subst h
    decide +kernel
  refine ⟨rfl, rfl, rfl, rfl, hr, ?_, ⟨?_, ?_⟩, le_rfl, le_rfl, ?_⟩
  · exact ⟨⟨show (0 : ℚ) ≤ 0 by decide +kernel, show (0 : ℚ) ≤ 2 by decide +kernel, ⟨1, rfl, by decide, by decide⟩, trivial⟩,
      show (0 : ℚ) ≤ 1 by decide +kernel, show (1 : ℚ) ≤ 3 by decide +kernel, ⟨2, rfl, by decide, by decide⟩, trivial⟩
  · exact fun t h _ => prev_abs (n := 2) hh (by decide) (k := .greater) (l := sx)
      (r := num 0) ⟨⟨1, rfl, by decide, by decide⟩, trivial⟩ (by decide +kernel) t (le_trans (by decide +kernel) h)
  · exact fun t h _ => prev_abs (n := 2) hh (by decide) (k := .greater) (l := sy)
      (r := num 0) ⟨⟨2, rfl, by decide, by decide⟩, trivial⟩ (by decide +kernel) t (le_trans (by decide +kernel) h)
  · exact ⟨⟨_, 0, rfl, rfl, by decide +kernel⟩, ⟨_, 3, rfl, rfl, by decide +kernel⟩⟩

theorem level_started (p : Bool) : Started (lastTime (levelD.take 2)) [] p 0 levelF := by
  have hl : lastTime (levelD.take 2) = 1 := by decide +kernel
  rw [hl]
  exact ⟨Or.inr (show (0 : ℚ) + 0 ≤ 1 by decide +kernel), Or.inr (show (0 : ℚ) + 1 ≤ 1 by decide +kernel)⟩

theorem level_edge (p : Bool) : OffEdge (lastTime (levelD.take 2)) [] p 0 0 levelF := by
  have hl : lastTime (levelD.take 2) = 1 := by decide +kernel
  rw [hl]
  simp only [levelF, alwT, evT, above, OffEdge, b_begin, b_stop, known]
  norm_num

/-- After the row at time 1 the robustness is known to be between -10000 and 2; it is 2. -/
example : ∃ g' m' v, (mon .PREVIOUS levelF (levelD.take 2)).evalRob1 .init 0 = (g', m', .ok v) ∧
    er m'.lowerRob ≤ rob .PREVIOUS levelD [] levelF 0 ∧
    rob .PREVIOUS levelD [] levelF 0 ≤ er m'.upperRob :=
  C25_C26_shallow_previous_partial .init (mon .PREVIOUS levelF (levelD.take 2)) 2 levelF 0 [[3, 4, 1]]
    (by decide +kernel) level_ready ⟨⟨trivial, trivial⟩, trivial, trivial⟩ ⟨rfl, ⟨rfl, trivial⟩, rfl, trivial⟩
    level_started level_edge

example : ((mon .PREVIOUS levelF (levelD.take 2)).evalRob1 .init 0).2.1.lowerRob = -10000 ∧
    ((mon .PREVIOUS levelF (levelD.take 2)).evalRob1 .init 0).2.1.upperRob = 2 := by decide +kernel

example : robBound .PREVIOUS Globals.init.B (levelD.take 2) [] false 0 0 levelF 0 = er 2 := by
  obtain ⟨g', m', v, h1, _, h3⟩ := C62_shallow_previous_partial .init (mon .PREVIOUS levelF (levelD.take 2)) 2 levelF 0
    (begun_prefix (R := [[3, 4, 1]]) (by decide +kernel) level_ready) ⟨⟨trivial, trivial⟩, trivial, trivial⟩
    ⟨rfl, ⟨rfl, trivial⟩, rfl, trivial⟩
  have h3 := h3 (level_started false) (level_edge false)
  have e : m' = ((mon .PREVIOUS levelF (levelD.take 2)).evalRob1 .init 0).2.1 := by rw [h1]
  rw [e, show ((mon .PREVIOUS levelF (levelD.take 2)).evalRob1 .init 0).2.1.upperRob = 2 by decide +kernel] at h3
  exact h3

/-- The bounds meet on the whole of `levelD` and on that of `jumpD (1/2)`. -/
example : (∃ g' m' v, (mon .PREVIOUS levelF levelD).evalRob .init 0 0 = (g', m', .ok v) ∧
      rob .PREVIOUS levelD [] levelF 0 = er v ∧ m'.lowerRob = v ∧ m'.upperRob = v) ∧
    ∃ g' m' v, (mon .PREVIOUS jumpF (jumpD (1 / 2))).evalRob .init 0 0 = (g', m', .ok v) ∧
      rob .PREVIOUS (jumpD (1 / 2)) [] jumpF 0 = er v ∧ m'.lowerRob = v ∧ m'.upperRob = v :=
  ⟨C28_previous_partial .init _ 2 levelF 0 0 level_ready
      (stepOk_plain _ _ levelF false _ _ ⟨⟨trivial, trivial⟩, trivial, trivial⟩ ⟨rfl, trivial, trivial⟩ fun _ => rfl)
      ⟨trivial, trivial, fun h => h.elim⟩,
    C28_previous_partial .init _ 2 jumpF 0 0 (jumpD_ready (1 / 2) (by norm_num) (by norm_num)) jumpD_step
      ⟨⟨trivial, trivial⟩, fun h => h.elim⟩⟩

/-- The signal of `x > 0 or y > 0` on `[0, 1]`. -/
example : StepSignalRight .init (mon .PREVIOUS jumpG (jumpD (1 / 2))) jumpG 0 1 :=
  C21_previous_partial .init _ 2 jumpG 0 1 (jumpG_ready (1 / 2) (by norm_num) (by norm_num))
    (by simpa [mon, jumpF, jumpG, evT, StepOk, lit, bound] using jumpD_step)

/-- The signal of `alw_[0,2] ev_[0,2] x > 0` at time 0. -/
example : StepSignalRight .init (mon .PREVIOUS nestF hopD) nestF 0 0 :=
  C21_nested_previous_partial .init _ 2 nestF 0 0 hop_ready ⟨trivial, trivial⟩ trivial

/-- C21 is false: the signal of `x > 0 or y > 0` on `[0, 1]` is -1 at time 1, where `x` and `y`
have jumped to 5 and 3. -/
theorem C21_previous_false : ¬ C21_previous_full := by
  intro h
  obtain ⟨g', m', v, z, h1, h2, _, _, _, h5⟩ := h .init _ 2 jumpG 0 1 (jumpG_ready 1 (by norm_num) le_rfl)
    ⟨⟨trivial, trivial⟩, trivial, trivial⟩
  obtain ⟨w, h6, h7⟩ := h5 1 (by norm_num) le_rfl
  have h3 : (((mon .PREVIOUS jumpG (jumpD 1)).evalRob .init 0 1).2.1.getSignal.map
      fun z => value z 1) = .ok (some (-1)) := by decide +kernel
  rw [h1] at h3
  simp only [h2, Except.map, Except.ok.injEq] at h3
  rw [h3] at h6
  obtain rfl := Option.some.inj h6
  have h8 : er (trace .PREVIOUS (jumpD 1) 1 1 - 0) ⊔ er (trace .PREVIOUS (jumpD 1) 2 1 - 0) = er (-1) := h7
  rw [jumpD_x 1 1 (by norm_num) le_rfl, if_neg (lt_irrefl _)] at h8
  have h9 := h8 ▸ (le_sup_left : er (5 - 0) ≤ er (5 - 0) ⊔ er (trace .PREVIOUS (jumpD 1) 2 1 - 0))
  rw [er_le] at h9
  norm_num at h9

/-- `alw_[0,2] ev_[0,1] (x > 0 and y > 0)`. -/
def fallF : Tr := alwT 0 2 (evT 0 1 (.and .init (above sx 0) (above sy 0)))

/-- `x` falls from 3 to -5 at time 2. -/
def fallD : List (List ℚ) := [[0, 3, 3], [1, 3, 3], [2, -5, 3], [3, -5, 3]]

theorem fall_ready : Ready .PREVIOUS 2 Globals.init.B (mon .PREVIOUS fallF fallD) fallF 0 0 := by
  have hr : WellShaped 2 fallD := by
    refine ⟨by decide +kernel, ?_⟩
    simp only [fallD, List.pairwise_cons, List.mem_cons, List.not_mem_nil, or_false]
    simp
    norm_num
  have hh : ∀ row, fallD.head? = some row → rowTime row ≤ 0 := by
    intro row h
    simp only [fallD, List.head?_cons, Option.some.injEq] at h
    subst h
    decide +kernel
  refine ⟨rfl, rfl, rfl, rfl, hr, ?_, ⟨?_, ?_⟩, le_rfl, le_rfl, ?_⟩
  · exact ⟨show (0 : ℚ) ≤ 0 by decide +kernel, show (0 : ℚ) ≤ 2 by decide +kernel,
      show (0 : ℚ) ≤ 0 by decide +kernel, show (0 : ℚ) ≤ 1 by decide +kernel,
      ⟨⟨1, rfl, by decide, by decide⟩, trivial⟩, ⟨2, rfl, by decide, by decide⟩, trivial⟩
  · exact fun t h _ => prev_abs (n := 2) hh (by decide) (k := .greater) (l := sx)
      (r := num 0) ⟨⟨1, rfl, by decide, by decide⟩, trivial⟩ (by decide +kernel) t (le_trans (by decide +kernel) h)
  · exact fun t h _ => prev_abs (n := 2) hh (by decide) (k := .greater) (l := sy)
      (r := num 0) ⟨⟨2, rfl, by decide, by decide⟩, trivial⟩ (by decide +kernel) t (le_trans (by decide +kernel) h)
  · exact ⟨⟨_, 0, rfl, rfl, by decide +kernel⟩, ⟨_, 3, rfl, rfl, by decide +kernel⟩⟩

/-- A trace that keeps `u` until the jump to `v` at time 2. -/
theorem fall_x {D : List (List ℚ)} (u v : ℚ) (hc : column D 1 = [(0, u), (1, u), (2, v), (3, v)]) (t : ℚ)
    (h : 2 ≤ t) : trace .PREVIOUS D 1 t = v := by
  simp only [trace]
  rw [hc]
  simp only [interp, if_neg (show ¬ t < 0 by linarith), if_neg (show ¬ t < 1 by linarith),
    if_neg (show ¬ t < 2 by linarith)]
  split_ifs <;> first | rfl | (exfalso; linarith)

/-- C25 is false: with data up to time 2, `alw_[0,2] ev_[0,1] (x > 0 and y > 0)` gets the lower
bound 3, although `x` has fallen to -5 at time 2.  On the whole trace the robustness is -5. -/
theorem C25_previous_false : ¬ C25_previous_full := by
  intro h
  have h1 := h .init ((mon .PREVIOUS fallF (fallD.take 3)).evalRob1 .init 0).1
    (mon .PREVIOUS fallF (fallD.take 3)) ((mon .PREVIOUS fallF (fallD.take 3)).evalRob1 .init 0).2.1 2 fallF 0
    3 [[3, -5, 3]] (by decide +kernel) fall_ready ⟨⟨trivial, trivial⟩, trivial, trivial⟩
    (Prod.ext rfl (Prod.ext rfl (by decide +kernel)))
  rw [show ((mon .PREVIOUS fallF (fallD.take 3)).evalRob1 .init 0).2.1.lowerRob = 3 from by
    decide +kernel] at h1
  have h2 : rob .PREVIOUS fallD [] fallF 0 ≤ er (-5) := by
    refine iInf₂_le_of_le 2 ?_ ?_
    · rw [b_begin, b_stop, Set.mem_Icc]
      norm_num
    · refine iSup₂_le fun r hr => ?_
      rw [b_begin, b_stop, Set.mem_Icc] at hr
      show er (trace .PREVIOUS fallD 1 r - 0) ⊓ _ ≤ _
      rw [fall_x 3 (-5) (by decide +kernel) r (by linarith)]
      exact inf_le_left.trans (er_le.2 (by norm_num))
  have h3 := h1.trans h2
  rw [er_le] at h3
  norm_num at h3

/-- `ev_[0,2] alw_[0,1] x > 0`. -/
def climbF : Tr := evT 0 2 (alwT 0 1 (above sx 0))

/-- `x` rises from -3 to 5 at time 2. -/
def climbD : List (List ℚ) := [[0, -3, 3], [1, -3, 3], [2, 5, 3], [3, 5, 3]]

theorem climb_ready : Ready .PREVIOUS 2 Globals.init.B (mon .PREVIOUS climbF climbD) climbF 0 0 := by
  have hr : WellShaped 2 climbD := by
    refine ⟨by decide +kernel, ?_⟩
    simp only [climbD, List.pairwise_cons, List.mem_cons, List.not_mem_nil, or_false]
    simp
    norm_num
  have hh : ∀ row, climbD.head? = some row → rowTime row ≤ 0 := by
    intro row h
    simp only [climbD, List.head?_cons, Option.some.injEq] at h
    subst h
    decide +kernel
  refine ⟨rfl, rfl, rfl, rfl, hr, ?_, ?_, le_rfl, le_rfl, ?_⟩
  · exact ⟨show (0 : ℚ) ≤ 0 by decide +kernel, show (0 : ℚ) ≤ 2 by decide +kernel,
      show (0 : ℚ) ≤ 0 by decide +kernel, show (0 : ℚ) ≤ 1 by decide +kernel,
      ⟨1, rfl, by decide, by decide⟩, trivial⟩
  · exact fun t h _ => prev_abs (n := 2) hh (by decide) (k := .greater) (l := sx)
      (r := num 0) ⟨⟨1, rfl, by decide, by decide⟩, trivial⟩ (by decide +kernel) t (le_trans (by decide +kernel) h)
  · exact ⟨⟨_, 0, rfl, rfl, by decide +kernel⟩, ⟨_, 3, rfl, rfl, by decide +kernel⟩⟩

/-- C26 is false: with data up to time 2, `ev_[0,2] alw_[0,1] x > 0` gets the upper bound -3,
although `x` has risen to 5 at time 2.  On the whole trace the robustness is 5. -/
theorem C26_previous_false : ¬ C26_previous_full := by
  intro h
  have h1 := h .init ((mon .PREVIOUS climbF (climbD.take 3)).evalRob1 .init 0).1
    (mon .PREVIOUS climbF (climbD.take 3)) ((mon .PREVIOUS climbF (climbD.take 3)).evalRob1 .init 0).2.1 2 climbF 0
    (-3) [[3, 5, 3]] (by decide +kernel) climb_ready ⟨trivial, trivial⟩
    (Prod.ext rfl (Prod.ext rfl (by decide +kernel)))
  rw [show ((mon .PREVIOUS climbF (climbD.take 3)).evalRob1 .init 0).2.1.upperRob = -3 from by
    decide +kernel] at h1
  have h2 : er 5 ≤ rob .PREVIOUS climbD [] climbF 0 := by
    refine le_iSup₂_of_le 2 ?_ ?_
    · rw [b_begin, b_stop, Set.mem_Icc]
      norm_num
    · refine le_iInf₂ fun r hr => ?_
      rw [b_begin, b_stop, Set.mem_Icc] at hr
      show er 5 ≤ er (trace .PREVIOUS climbD 1 r - 0)
      rw [fall_x (-3) 5 (by decide +kernel) r (by linarith)]
      exact er_le.2 (by norm_num)
  have h3 := h2.trans h1
  rw [er_le] at h3
  norm_num at h3

/-- C27 is false: the row at time 3 raises the upper bound of `ev_[0,2] alw_[0,1] x > 0` from -3
to 5. -/
theorem C27_previous_false : ¬ C27_previous_full := by
  intro h
  have h1 := (h .init ((mon .PREVIOUS climbF (climbD.take 3)).evalRob1 .init 0).1
    ((mon .PREVIOUS climbF climbD).evalRob1 .init 0).1
    (mon .PREVIOUS climbF (climbD.take 3)) ((mon .PREVIOUS climbF (climbD.take 3)).evalRob1 .init 0).2.1
    ((mon .PREVIOUS climbF climbD).evalRob1 .init 0).2.1 2 climbF 0
    (-3) 5 [[3, 5, 3]] [] (by decide +kernel) climb_ready ⟨trivial, trivial⟩
    (Prod.ext rfl (Prod.ext rfl (by decide +kernel)))
    (Prod.ext rfl (Prod.ext rfl (by decide +kernel)))).2
  rw [show ((mon .PREVIOUS climbF (climbD.take 3)).evalRob1 .init 0).2.1.upperRob = -3 from by
    decide +kernel, show ((mon .PREVIOUS climbF climbD).evalRob1 .init 0).2.1.upperRob = 5 from by
    decide +kernel] at h1
  norm_num at h1

/-- C62 is false: the bounds of the interval semantics hold on every completion, those of
`eval_rob` do not. -/
theorem C62_previous_false : ¬ C62_previous_full := by
  intro h
  refine C25_previous_false fun g g' m m' n T t0 v R hne hr hp hv => ?_
  have hb := begun_prefix hne hr
  rw [← (h g g' m m' n T t0 v hb hp hv).1]
  exact (bound_sound (fun i t ht => trace_upto hb.rows hr.rows (same_prefix hne hr.rows) i ht) T hr.stop hr.shape
    hr.within t0 le_rfl (known_mem T hr.stop hr.shape).1).1 rfl

theorem cut_step_ready : Ready .PREVIOUS 2 Globals.init.B (mon .PREVIOUS cutF cutD) cutF 0 0 := by
  have h := cutF_ready
  have hh : ∀ row, cutD.head? = some row → rowTime row ≤ 0 := by
    intro row h
    simp only [cutD, List.head?_cons, Option.some.injEq] at h
    subst h
    decide +kernel
  refine ⟨rfl, rfl, rfl, rfl, h.rows, h.shape, ?_, le_rfl, le_rfl, h.covers⟩
  exact fun t h _ => prev_abs (n := 2) hh (by decide) (k := .greater) (l := sx)
    (r := num 0) ⟨⟨1, rfl, by decide, by decide⟩, trivial⟩ (by decide +kernel) t (le_trans (by decide +kernel) h)

/-- C28 is false: for `alw_[0,4] ev_[0,1] x > 0` the robustness is -1 and both bounds are 3. -/
theorem C28_previous_false : ¬ C28_previous_full := by
  intro h
  have h3 := (h .init ((mon .PREVIOUS cutF cutD).evalRob .init 0 0).1 _
    ((mon .PREVIOUS cutF cutD).evalRob .init 0 0).2.1 2 cutF 0 (-1) cut_step_ready
    ⟨trivial, trivial⟩ (Prod.ext rfl (Prod.ext rfl (by decide +kernel)))).1
  have h4 : ((mon .PREVIOUS cutF cutD).evalRob .init 0 0).2.1.lowerRob = 3 := by decide +kernel
  rw [h4] at h3
  norm_num at h3

end Props
end STLRom
