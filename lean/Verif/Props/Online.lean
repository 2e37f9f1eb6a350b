import Verif.Props.Formula
import Verif.Proofs.TotalEval
import Verif.Proofs.PartialSound

/-!
# Properties C17, C25, C26, C27, C62: evaluation is safe; bounds on partial traces
-/

namespace STLRom
namespace Props
open Signal Spec

/-! ## C17 no undefined behaviour -/

/-- A formula, `until` included, over signals with a column in every row, with interval bounds
`0 ≤ a ≤ b`. -/
def AnyFormula (n : ℕ) (P : Assoc ℚ) : Tr → Prop
  | .atom _ _ l r => IsExpr n l ∧ IsExpr n r
  | .not _ c => AnyFormula n P c
  | .and _ l r | .or _ l r | .implies _ l r => AnyFormula n P l ∧ AnyFormula n P r
  | .ev _ I c | .alw _ I c =>
    0 ≤ bound P I.beginStr I.begin ∧
      bound P I.beginStr I.begin ≤ bound P I.stopStr I.stop ∧ AnyFormula n P c
  | .untl _ l I r =>
    0 ≤ bound P I.beginStr I.begin ∧
      bound P I.beginStr I.begin ≤ bound P I.stopStr I.stop ∧ AnyFormula n P l ∧ AnyFormula n P r
  | _ => False

/-- The full claim: a number or a C++ exception. -/
def C17_full : Prop := ∀ (g : Globals) (m : Monitor) (n : ℕ) (T : Tr) (t0 : ℚ),
  m.formula = some T → AnyFormula n m.params T → WellShaped n m.data → 0 ≤ t0 →
    (∃ v, (m.evalRob1 g t0).2.2 = .ok v) ∨ (∃ e, (m.evalRob1 g t0).2.2 = .error (.exn e))

/-- C17 for every formula without `until`, any rows, any interpolation, any time interval that
ends at 0 or later: in the space semantics `eval_rob` returns a number as soon as there is a
row.  Without rows, and in the Boolean semantics, it throws.  Missing: `until` (where it fails,
`C17_false`) and the two time semantics (where it fails, `C17_time_false`). -/
theorem C17_partial (g : Globals) (m : Monitor) (n : ℕ) (T : Tr) (s e : ℚ) (hm : m.formula = some T)
    (hF : IsFormula n m.params T) (hD : WellShaped n m.data) (he : 0 ≤ e) :
    (m.data = [] → (m.evalRob g s e).2.2 = .error (.exn "out_of_range")) ∧
    (m.data ≠ [] → m.sem = .SPACE → ∃ v, (m.evalRob g s e).2.2 = .ok v) ∧
    (m.data ≠ [] → m.sem = .BOOLEAN →
      (m.evalRob g s e).2.2 = .error (.exn "Invalid semantics value")) := by
  have hF0 := isFormula_prepare (P := m.params) T s e hF
  have hf := fresh_prepare m.params T s e
  unfold Monitor.evalRob
  rw [hm]
  simp only
  refine ⟨fun h => ?_, fun h hs => ?_, fun h hs => ?_⟩
  · have := rob_norows (env := m.envOf g) h _ he (Or.inr hF0) hf
    unfold Monitor.envOf at this
    simp only [Monitor.run3, this, bind, Except.bind, Tr.outOfRange]
  · obtain ⟨x, hx⟩ := run3_any (env := m.envOf g) hD hs h (s := s) he hF
    unfold Monitor.envOf at hx
    simp only at hx
    rw [hx]
    exact ⟨_, rfl⟩
  · have := rob_boolean (env := m.envOf g) hD hs h _ he hF0 hf
    unfold Monitor.envOf at this
    simp only [Monitor.run3, this, bind, Except.bind]

/-- `alw_[1,2] (not (x > 1) or ev_[0,3] y > 0)` with two rows, evaluated at time 5. -/
def shortM : Monitor := mon .PREVIOUS
  (alwT 1 2 (.or .init (.not .init (above sx 1)) (evT 0 3 (above sy 0)))) [[0, 1, 2], [1, 0, -1]]

example : ∃ v, (shortM.evalRob1 .init 5).2.2 = .ok v :=
  (C17_partial .init shortM 2 _ 5 5 rfl
    ⟨by decide +kernel, by decide +kernel, ⟨⟨1, rfl, by decide, by decide⟩, trivial⟩,
      by decide +kernel, by decide +kernel, ⟨2, rfl, by decide, by decide⟩, trivial⟩
    ⟨by decide +kernel, by simp [shortM, mon, List.pairwise_cons]⟩ (by norm_num)).2.1
    (by simp [shortM, mon]) rfl

/-- In the time semantics a single comparison evaluated at one time is undefined behaviour. -/
theorem C17_time_false :
    (({ mon .LINEAR (above sx 0) [[0, 1, 1], [1, 1, 1]] with sem := .LEFT_TIME }).evalRob1
      .init 0).2.2 = .error .ub ∧
    (({ mon .LINEAR (above sx 0) [[0, 1, 1], [1, 1, 1]] with sem := .RIGHT_TIME }).evalRob1
      .init 0).2.2 = .error .ub := by
  constructor <;> decide +kernel

/-- `x > 0 until_[0,2] x > 0`. -/
def untF : Tr := .untl .init (above sx 0) (lit 0 2) (above sx 0)

/-- C17 is false: `until` on a trace with a single row is undefined behaviour. -/
theorem C17_false : ¬ C17_full := by
  intro h
  have h1 := h .init (mon .LINEAR untF [[0, 1, 1]]) 2 untF 0 rfl
    ⟨by decide +kernel, by decide +kernel, ⟨⟨1, rfl, by decide, by decide⟩, trivial⟩,
      ⟨1, rfl, by decide, by decide⟩, trivial⟩
    ⟨by decide +kernel, by simp [mon]⟩ le_rfl
  have h2 : ((mon .LINEAR untF [[0, 1, 1]]).evalRob1 .init 0).2.2 = .error .ub := by decide +kernel
  rw [h2] at h1
  simp at h1

/-- Also on a long trace: `until_[0,2]` evaluated at time 1 when the data has reached time 2. -/
theorem C17_late_false : ((mon .LINEAR untF [[0, 1, 1], [1, 1, 1], [2, 1, 1]]).evalRob1 .init 1).2.2 =
    .error .ub := by decide +kernel

/-! ## C25, C26 the bounds on a partial trace -/

/-- The full claim for the until-free fragment over atoms that compare signals and constants:
if the rows of `m` are the first rows of a covering trace, then the lower bound computed on
them is at most the robustness on the covering trace. -/
def C25_full : Prop := ∀ (g g' : Globals) (m m' : Monitor) (n : ℕ) (T : Tr) (t0 v : ℚ)
    (R : List (List ℚ)),
  m.data ≠ [] → Ready .LINEAR n g.B { m with data := m.data ++ R } T t0 t0 → PlainAtoms T →
    m.evalRob1 g t0 = (g', m', .ok v) →
    er m'.lowerRob ≤ rob .LINEAR (m.data ++ R) m.params T t0

/-- The full claim for the upper bound. -/
def C26_full : Prop := ∀ (g g' : Globals) (m m' : Monitor) (n : ℕ) (T : Tr) (t0 v : ℚ)
    (R : List (List ℚ)),
  m.data ≠ [] → Ready .LINEAR n g.B { m with data := m.data ++ R } T t0 t0 → PlainAtoms T →
    m.evalRob1 g t0 = (g', m', .ok v) →
    rob .LINEAR (m.data ++ R) m.params T t0 ≤ er m'.upperRob

theorem cutD_x (t : ℚ) (h0 : 0 ≤ t) (h : t ≤ 1) : rob .LINEAR cutD [] (above sx 0) t = er (-1) := by
  have e : column cutD 1 = [(0, -1), (1, -1), (2, -1), (3, 3), (4, 3), (5, 3)] := by decide +kernel
  simp only [above, rob, sx, num, expr, trace, margin, number]
  rw [show (List.lookup "x" [("x", 1), ("y", 2)]).getD 0 = 1 from rfl]
  congr 1
  rw [e]
  simp only [interp, if_neg (not_lt.2 h0), if_pos (show t < 2 by linarith)]
  split_ifs <;> simp

/-- C25 is false, even with all the data: `alw_[0,4] ev_[0,1] x > 0` gets the lower bound 3 on
a trace where its robustness is -1.  (Data up to time 4 is enough to get that bound.) -/
theorem C25_false : ¬ C25_full := by
  intro h
  have h1 := h .init ((mon .LINEAR cutF (cutD.take 5)).evalRob1 .init 0).1
    (mon .LINEAR cutF (cutD.take 5)) ((mon .LINEAR cutF (cutD.take 5)).evalRob1 .init 0).2.1 2 cutF 0
    (-1) [[5, 3, 0]] (by decide +kernel) cutF_ready ⟨trivial, trivial⟩
    (Prod.ext rfl (Prod.ext rfl (by decide +kernel)))
  rw [show ((mon .LINEAR cutF (cutD.take 5)).evalRob1 .init 0).2.1.lowerRob = 3 from by
    decide +kernel] at h1
  have h2 : rob .LINEAR cutD [] cutF 0 ≤ er (-1) := by
    refine iInf₂_le_of_le 0 ?_ ?_
    · rw [show bound [] (lit 0 4).beginStr (lit 0 4).begin = 0 from rfl,
        show bound [] (lit 0 4).stopStr (lit 0 4).stop = 4 from rfl, Set.mem_Icc]
      norm_num
    · refine iSup₂_le fun r hr => ?_
      rw [show bound [] (lit 0 1).beginStr (lit 0 1).begin = 0 from rfl,
        show bound [] (lit 0 1).stopStr (lit 0 1).stop = 1 from rfl, Set.mem_Icc] at hr
      rw [cutD_x r (by linarith) (by linarith)]
  have h3 := h1.trans h2
  rw [er_le] at h3
  norm_num at h3

/-- `x` is 1 at times 0, 2 and 5. -/
def upD : List (List ℚ) := [[0, 1, 0], [2, 1, 0], [5, 1, 0]]

theorem upF_ready : Ready .LINEAR 2 Globals.init.B (mon .LINEAR (above sx 0) upD) (above sx 0) 5 5 := by
  have hr : WellShaped 2 upD := by
    refine ⟨by decide +kernel, ?_⟩
    simp only [upD, List.pairwise_cons, List.mem_cons, List.not_mem_nil, or_false]
    simp
    norm_num
  have hh : ∀ row, upD.head? = some row → rowTime row ≤ 5 := by
    intro row h
    simp only [upD, List.head?_cons, Option.some.injEq] at h
    subst h
    decide +kernel
  refine ⟨rfl, rfl, rfl, rfl, hr, ⟨⟨1, rfl, by decide, by decide⟩, trivial⟩, ?_, by norm_num, le_rfl, ?_⟩
  · exact fun t h _ => trace_abs hr hh (by decide) (k := .greater) (l := sx)
      (r := num 0) ⟨trivial, trivial⟩ (by decide +kernel) t h
  · exact ⟨⟨_, 0, rfl, rfl, by decide +kernel⟩, ⟨_, 5, rfl, rfl, by decide +kernel⟩⟩

/-- C26 is false: evaluated at time 5 with data up to time 2, the atom `x > 0` gets the upper
bound -10000; it may still turn out to be 1. -/
theorem C26_false : ¬ C26_full := by
  intro h
  have h1 := h .init ((mon .LINEAR (above sx 0) (upD.take 2)).evalRob1 .init 5).1
    (mon .LINEAR (above sx 0) (upD.take 2))
    ((mon .LINEAR (above sx 0) (upD.take 2)).evalRob1 .init 5).2.1 2 (above sx 0) 5
    1 [[5, 1, 0]] (by decide +kernel) upF_ready ⟨trivial, trivial⟩
    (Prod.ext rfl (Prod.ext rfl (by decide +kernel)))
  rw [show ((mon .LINEAR (above sx 0) (upD.take 2)).evalRob1 .init 5).2.1.upperRob = -10000 from by
    decide +kernel] at h1
  have h2 := evalRob_exact_ret upF_ready (Or.inl ⟨trivial, trivial⟩) trivial
    (g' := ((mon .LINEAR (above sx 0) upD).evalRob .init 5 5).1)
    (m' := ((mon .LINEAR (above sx 0) upD).evalRob .init 5 5).2.1) (v := 1)
    (Prod.ext rfl (Prod.ext rfl (by decide +kernel)))
  rw [show rob .LINEAR ((mon .LINEAR (above sx 0) (upD.take 2)).data ++ [[5, 1, 0]])
    (mon .LINEAR (above sx 0) (upD.take 2)).params (above sx 0) 5 = er 1 from h2, er_le] at h1
  norm_num at h1

/-! ## C27 more samples tighten the bounds -/

/-- The full claim for the until-free fragment over atoms that compare signals and constants. -/
def C27_full : Prop := ∀ (g g1 g2 : Globals) (m m1 m2 : Monitor) (n : ℕ) (T : Tr) (t0 v1 v2 : ℚ)
    (R1 R2 : List (List ℚ)),
  m.data ≠ [] → Ready .LINEAR n g.B { m with data := m.data ++ R1 ++ R2 } T t0 t0 →
    PlainAtoms T → m.evalRob1 g t0 = (g1, m1, .ok v1) →
    Monitor.evalRob1 g { m with data := m.data ++ R1 } t0 = (g2, m2, .ok v2) →
    m1.lowerRob ≤ m2.lowerRob ∧ m2.upperRob ≤ m1.upperRob

/-- C27 is false: a sample at time 3 raises the upper bound of `alw_[0,4] ev_[0,1] x > 0`
from -1 to 3. -/
theorem C27_false : ¬ C27_full := by
  intro h
  have h1 := (h .init ((mon .LINEAR cutF (cutD.take 3)).evalRob1 .init 0).1
    ((mon .LINEAR cutF (cutD.take 4)).evalRob1 .init 0).1
    (mon .LINEAR cutF (cutD.take 3)) ((mon .LINEAR cutF (cutD.take 3)).evalRob1 .init 0).2.1
    ((mon .LINEAR cutF (cutD.take 4)).evalRob1 .init 0).2.1 2 cutF 0
    (-1) (-1) [[3, 3, 0]] [[4, 3, 0], [5, 3, 0]] (by decide +kernel) cutF_ready ⟨trivial, trivial⟩
    (Prod.ext rfl (Prod.ext rfl (by decide +kernel)))
    (Prod.ext rfl (Prod.ext rfl (by decide +kernel)))).2
  rw [show ((mon .LINEAR cutF (cutD.take 3)).evalRob1 .init 0).2.1.upperRob = -1 from by
    decide +kernel, show ((mon .LINEAR cutF (cutD.take 4)).evalRob1 .init 0).2.1.upperRob = 3 from by
    decide +kernel] at h1
  norm_num at h1

/-! ## C62 the bounds on a partial trace are those of the interval semantics -/

/-- The full claim. -/
def C62_full : Prop := ∀ (g g' : Globals) (m m' : Monitor) (n : ℕ) (T : Tr) (t0 v : ℚ),
  Begun .LINEAR n g.B m T t0 t0 → PlainAtoms T → m.evalRob1 g t0 = (g', m', .ok v) →
    robBound .LINEAR g.B m.data m.params true t0 t0 T t0 = er m'.lowerRob ∧
    robBound .LINEAR g.B m.data m.params false t0 t0 T t0 = er m'.upperRob

/-- C62 for every until-free formula over atoms that compare signals, constants or affine
expressions: the evaluation returns, and each bound that meets `Sound` is the one of the
interval semantics.  Missing: the cases `Sound` excludes (`C62_false`) and `until`. -/
theorem C62_partial (g : Globals) (m : Monitor) (n : ℕ) (T : Tr) (s e : ℚ) (h : Begun .LINEAR n g.B m T s e)
    (hk : AtomsOkTo m.data m.params s e T) :
    ∃ g' m' v, m.evalRob g s e = (g', m', .ok v) ∧
      (Sound g.B m.data m.params true s e T →
        robBound .LINEAR g.B m.data m.params true s e T s = er m'.lowerRob) ∧
      (Sound g.B m.data m.params false s e T →
        robBound .LINEAR g.B m.data m.params false s e T s = er m'.upperRob) := by
  obtain ⟨g', m', v, h1, h2⟩ := evalRob_bounds h hk
  exact ⟨g', m', v, h1, fun h => h2 true h, fun h => h2 false h⟩

/-- At one time, where the temporal operators inside others have Boolean operands, two conditions
are enough. -/
theorem C62_flat_partial (g : Globals) (m : Monitor) (n : ℕ) (T : Tr) (t0 : ℚ)
    (h : Begun .LINEAR n g.B m T t0 t0) (hp : PlainAtoms T) (hw : Joined false T) :
    ∃ g' m' v, m.evalRob1 g t0 = (g', m', .ok v) ∧
      (Started (lastTime m.data) m.params true t0 T → OffEdge (lastTime m.data) m.params true t0 t0 T →
        robBound .LINEAR g.B m.data m.params true t0 t0 T t0 = er m'.lowerRob) ∧
      (Started (lastTime m.data) m.params false t0 T → OffEdge (lastTime m.data) m.params false t0 t0 T →
        robBound .LINEAR g.B m.data m.params false t0 t0 T t0 = er m'.upperRob) := by
  obtain ⟨g', m', v, h1, h2, h3⟩ := C62_partial g m n T t0 t0 h (plain_okTo _ _ hp)
  have hl := noLong_joined (B := g.B) (D := m.data) (p := true) (s := t0) (e := t0) h.shape hw fun _ => rfl
  have hu := noLong_joined (B := g.B) (D := m.data) (p := false) (s := t0) (e := t0) h.shape hw fun _ => rfl
  exact ⟨g', m', v, h1, fun a b => h2 ⟨a, b, hl.2, hl.1⟩, fun a b => h3 ⟨a, b, hu.2, hu.1⟩⟩

/-- C25 for every until-free formula: the lower bound computed on the first rows of a covering
trace is at most the robustness on the whole trace, if it meets `Sound`.  Missing: the cases
`Sound` excludes (`C25_false`) and `until`. -/
theorem C25_partial (g : Globals) (m : Monitor) (n : ℕ) (T : Tr) (s e : ℚ) (R : List (List ℚ))
    (hne : m.data ≠ []) (h : Ready .LINEAR n g.B { m with data := m.data ++ R } T s e)
    (hk : AtomsOkTo m.data m.params s e T) (hS : Sound g.B m.data m.params true s e T) :
    ∃ g' m' v, m.evalRob g s e = (g', m', .ok v) ∧
      er m'.lowerRob ≤ rob .LINEAR (m.data ++ R) m.params T s := by
  have hb := begun_prefix hne h
  obtain ⟨g', m', v, h1, h2⟩ := evalRob_bounds hb hk
  refine ⟨g', m', v, h1, ?_⟩
  rw [show er m'.lowerRob = _ from (h2 true hS).symm]
  exact (bound_sound (fun i t ht => trace_upto hb.rows h.rows (same_prefix hne h.rows) i ht) T h.stop h.shape
    h.within s le_rfl (known_mem T h.stop h.shape).1).1 rfl

/-- C26 in the same way. -/
theorem C26_partial (g : Globals) (m : Monitor) (n : ℕ) (T : Tr) (s e : ℚ) (R : List (List ℚ))
    (hne : m.data ≠ []) (h : Ready .LINEAR n g.B { m with data := m.data ++ R } T s e)
    (hk : AtomsOkTo m.data m.params s e T) (hS : Sound g.B m.data m.params false s e T) :
    ∃ g' m' v, m.evalRob g s e = (g', m', .ok v) ∧
      rob .LINEAR (m.data ++ R) m.params T s ≤ er m'.upperRob := by
  have hb := begun_prefix hne h
  obtain ⟨g', m', v, h1, h2⟩ := evalRob_bounds hb hk
  refine ⟨g', m', v, h1, ?_⟩
  rw [show er m'.upperRob = _ from (h2 false hS).symm]
  exact (bound_sound (fun i t ht => trace_upto hb.rows h.rows (same_prefix hne h.rows) i ht) T h.stop h.shape
    h.within s le_rfl (known_mem T h.stop h.shape).1).2 rfl

/-- C25 and C26 at one time, where the temporal operators inside others have Boolean operands. -/
theorem C25_C26_flat_partial (g : Globals) (m : Monitor) (n : ℕ) (T : Tr) (t0 : ℚ) (R : List (List ℚ))
    (hne : m.data ≠ []) (h : Ready .LINEAR n g.B { m with data := m.data ++ R } T t0 t0)
    (hp : PlainAtoms T) (hw : Joined false T)
    (hs : ∀ p, Started (lastTime m.data) m.params p t0 T)
    (ho : ∀ p, OffEdge (lastTime m.data) m.params p t0 t0 T) :
    ∃ g' m' v, m.evalRob1 g t0 = (g', m', .ok v) ∧
      er m'.lowerRob ≤ rob .LINEAR (m.data ++ R) m.params T t0 ∧
      rob .LINEAR (m.data ++ R) m.params T t0 ≤ er m'.upperRob := by
  have hn : ∀ p, Sound g.B m.data m.params p t0 t0 T := fun p =>
    have := noLong_joined (B := g.B) (D := m.data) (p := p) (s := t0) (e := t0) h.shape hw fun _ => rfl
    ⟨hs p, ho p, this.2, this.1⟩
  obtain ⟨g', m', v, h1, h2⟩ := C25_partial g m n T t0 t0 R hne h (plain_okTo _ _ hp) (hn true)
  obtain ⟨g2, m2, v2, h3, h4⟩ := C26_partial g m n T t0 t0 R hne h (plain_okTo _ _ hp) (hn false)
  rw [h1] at h3
  have hm : m' = m2 := congrArg (fun x => x.2.1) h3
  exact ⟨g', m', v, h1, h2, hm ▸ h4⟩

/-- C27 for every until-free formula, as C25: with more rows the lower bound does not go down
and the upper bound does not go up. -/
theorem C27_partial (g : Globals) (m : Monitor) (n : ℕ) (T : Tr) (s e : ℚ) (R1 R2 : List (List ℚ))
    (hne : m.data ≠ []) (h : Ready .LINEAR n g.B { m with data := m.data ++ R1 ++ R2 } T s e)
    (hk : AtomsOkTo m.data m.params s e T) (hk' : AtomsOkTo (m.data ++ R1) m.params s e T) :
    ∃ g1 g2 m1 m2 v1 v2, m.evalRob g s e = (g1, m1, .ok v1) ∧
      Monitor.evalRob g { m with data := m.data ++ R1 } s e = (g2, m2, .ok v2) ∧
      (Sound g.B m.data m.params true s e T → Sound g.B (m.data ++ R1) m.params true s e T →
        m1.lowerRob ≤ m2.lowerRob) ∧
      (Sound g.B m.data m.params false s e T → Sound g.B (m.data ++ R1) m.params false s e T →
        m2.upperRob ≤ m1.upperRob) := by
  have hb1 : Begun .LINEAR n g.B m T s e := begun_prefix (R := R1 ++ R2) hne (by rw [← List.append_assoc]; exact h)
  have hb2 : Begun .LINEAR n g.B { m with data := m.data ++ R1 } T s e :=
    begun_prefix (m := { m with data := m.data ++ R1 }) (R := R2) (by simp [hne]) h
  obtain ⟨g1, m1, v1, h1, h2⟩ := evalRob_bounds hb1 hk
  obtain ⟨g2, m2, v2, h3, h4⟩ := evalRob_bounds hb2 hk'
  have mono := fun p => bound_mono (P := m.params) hb1.big (lastTime_mono hne hb2.rows)
    (fun i t ht => trace_upto hb1.rows hb2.rows (same_prefix hne hb2.rows) i ht) T (p := p) h.stop h.shape
    hb2.within s le_rfl (known_mem T h.stop h.shape).1
  refine ⟨g1, g2, m1, m2, v1, v2, h1, h3, fun a b => ?_, fun a b => ?_⟩
  · have := (mono true).1 rfl
    rw [h2 true a, show robBound .LINEAR g.B (m.data ++ R1) m.params true s e T s = _ from h4 true b, er_le] at this
    exact this
  · have := (mono false).2 rfl
    rw [h2 false a, show robBound .LINEAR g.B (m.data ++ R1) m.params false s e T s = _ from h4 false b, er_le] at this
    exact this

/-- `alw_[0,2] ev_[0,2] x > 0`. -/
def nestF : Tr := alwT 0 2 (evT 0 2 (above sx 0))

/-- `x` is 1 throughout. -/
def nestD : List (List ℚ) := [[0, 1, 0], [1, 1, 0], [3 / 2, 1, 0], [4, 1, 0]]

theorem nestF_ready : Ready .LINEAR 2 Globals.init.B (mon .LINEAR nestF nestD) nestF 0 0 := by
  have hr : WellShaped 2 nestD := by
    refine ⟨by decide +kernel, ?_⟩
    simp only [nestD, List.pairwise_cons, List.mem_cons, List.not_mem_nil, or_false]
    simp
    norm_num
  have hh : ∀ row, nestD.head? = some row → rowTime row ≤ 0 := by
    intro row h
    simp only [nestD, List.head?_cons, Option.some.injEq] at h
    subst h
    decide +kernel
  refine ⟨rfl, rfl, rfl, rfl, hr, ?_, ?_, le_rfl, le_rfl, ?_⟩
  · refine ⟨by decide +kernel, by decide +kernel, by decide +kernel, by decide +kernel,
      ⟨1, rfl, by decide, by decide⟩, trivial⟩
  · exact fun t h _ => trace_abs hr hh (by decide) (k := .greater) (l := sx)
      (r := num 0) ⟨trivial, trivial⟩ (by decide +kernel) t (le_trans (by decide +kernel) h)
  · exact ⟨⟨_, 0, rfl, rfl, by decide +kernel⟩, ⟨_, 4, rfl, rfl, by decide +kernel⟩⟩

theorem nest_x {D : List (List ℚ)} (hD : D = nestD.take 2 ∨ D = nestD.take 3) (t : ℚ) (h0 : 0 ≤ t) :
    rob .LINEAR D [] (above sx 0) t = er 1 := by
  have e : column D 1 = [(0, 1), (1, 1)] ∨ column D 1 = [(0, 1), (1, 1), (3 / 2, 1)] := by
    rcases hD with rfl | rfl
    · exact Or.inl (by decide +kernel)
    · exact Or.inr (by decide +kernel)
  simp only [above, rob, sx, num, expr, trace, margin, number]
  rw [show (List.lookup "x" [("x", 1), ("y", 2)]).getD 0 = 1 from rfl]
  congr 1
  rcases e with e | e <;> rw [e] <;> simp only [interp, if_neg (not_lt.2 h0)] <;> split_ifs <;> first | (exfalso; linarith) | simp

theorem nest_sound {D : List (List ℚ)} (hD : D = nestD.take 2 ∨ D = nestD.take 3) (p : Bool) :
    Sound Globals.init.B D [] p 0 0 nestF := by
  have hl : lastTime D = 1 ∨ lastTime D = 3 / 2 := by
    rcases hD with rfl | rfl
    · exact Or.inl (by decide +kernel)
    · exact Or.inr (by decide +kernel)
  have b0 : ∀ a b : ℚ, bound [] (lit a b).beginStr (lit a b).begin = a := fun _ _ => rfl
  have b1 : ∀ a b : ℚ, bound [] (lit a b).stopStr (lit a b).stop = b := fun _ _ => rfl
  have hd1 : 1 ≤ lastTime D := by rcases hl with h | h <;> rw [h] <;> norm_num
  have hd2 : lastTime D ≤ 3 / 2 := by rcases hl with h | h <;> rw [h] <;> norm_num
  have hk : known (lastTime D) [] p 0 4 (above sx 0) = lastTime D := by
    simp only [above, known]
    rw [min_eq_right (by linarith), max_eq_right (by linarith)]
  have hk2 : known (lastTime D) [] p 0 2 (evT 0 2 (above sx 0)) = if p then lastTime D else 0 := by
    simp only [evT, known, b0, b1]
    norm_num
    rw [hk]
    cases p
    · simp only [Bool.false_eq_true, if_false]
      rw [min_eq_right (by linarith), max_eq_left (by linarith)]
    · simp only [if_true]
      rw [min_eq_right (by linarith)]
  have hk3 : (if p then lastTime D else 0) ≤ 3 / 2 := by cases p <;> simp <;> linarith
  refine ⟨?_, ?_, ?_, ?_⟩
  · simp only [nestF, alwT, evT, above, Started, b0]
    right; linarith
  · simp only [nestF, alwT, OffEdge, b0, b1]
    norm_num
    rw [hk2]
    refine ⟨?_, fun _ => by linarith⟩
    simp only [evT, OffEdge, b0, b1]
    norm_num
    rw [hk]
    exact ⟨trivial, fun _ => by linarith⟩
  · simp only [nestF, alwT, evT, Uncut, b0, b1]
    norm_num
    trivial
  · simp only [nestF, alwT, NoLongBound, b0, b1]
    norm_num
    rw [hk2]
    refine ⟨?_, fun h => by linarith⟩
    simp only [evT, NoLongBound, b0, b1]
    norm_num
    rw [hk]
    refine ⟨trivial, fun h => by linarith, fun _ => Or.inr fun r v d h1 h2 h3 => ?_⟩
    have h2 := h2.trans_le (min_le_left _ _)
    have e : ∀ t, 0 ≤ t → robBound .LINEAR Globals.init.B D [] p 0 4 (above sx 0) t = er 1 := by
      intro t ht
      rw [← nest_x hD t ht]
      simp only [above, robBound]
      rw [if_neg (by linarith)]
    have h4 := h3 r le_rfl h2.le
    have h5 := h3 _ h2.le le_rfl
    rw [e _ h1] at h4
    rw [e _ (by linarith)] at h5
    have h4 := er_inj h4
    have h5 := er_inj h5
    have : d * (lastTime D - r) = 0 := by linarith
    rcases mul_eq_zero.1 this with h | h
    · exact h
    · linarith

/-- With data up to time 1 or 3/2, on the way to time 4. -/
example : ∃ g' m' v, (mon .LINEAR nestF (nestD.take 2)).evalRob .init 0 0 = (g', m', .ok v) ∧
    er m'.lowerRob ≤ rob .LINEAR nestD [] nestF 0 :=
  C25_partial .init (mon .LINEAR nestF (nestD.take 2)) 2 nestF 0 0 (nestD.drop 2) (by decide +kernel)
    nestF_ready (plain_okTo _ _ ⟨trivial, trivial⟩) (nest_sound (Or.inl rfl) true)

example : ∃ g' m' v, (mon .LINEAR nestF (nestD.take 2)).evalRob .init 0 0 = (g', m', .ok v) ∧
    rob .LINEAR nestD [] nestF 0 ≤ er m'.upperRob :=
  C26_partial .init (mon .LINEAR nestF (nestD.take 2)) 2 nestF 0 0 (nestD.drop 2) (by decide +kernel)
    nestF_ready (plain_okTo _ _ ⟨trivial, trivial⟩) (nest_sound (Or.inl rfl) false)

example : ∃ g1 g2 m1 m2 v1 v2, (mon .LINEAR nestF (nestD.take 2)).evalRob .init 0 0 = (g1, m1, .ok v1) ∧
    (mon .LINEAR nestF (nestD.take 3)).evalRob .init 0 0 = (g2, m2, .ok v2) ∧
    m1.lowerRob ≤ m2.lowerRob ∧ m2.upperRob ≤ m1.upperRob := by
  obtain ⟨g1, g2, m1, m2, v1, v2, h1, h2, h3, h4⟩ := C27_partial .init
    (mon .LINEAR nestF (nestD.take 2)) 2 nestF 0 0 [[3 / 2, 1, 0]] [[4, 1, 0]] (by decide +kernel)
    nestF_ready (plain_okTo _ _ ⟨trivial, trivial⟩) (plain_okTo _ _ ⟨trivial, trivial⟩)
  exact ⟨g1, g2, m1, m2, v1, v2, h1, h2, h3 (nest_sound (Or.inl rfl) true) (nest_sound (Or.inr rfl) true),
    h4 (nest_sound (Or.inl rfl) false) (nest_sound (Or.inr rfl) false)⟩

example : ∃ g' m' v, (mon .LINEAR nestF (nestD.take 3)).evalRob .init 0 0 = (g', m', .ok v) ∧
    robBound .LINEAR Globals.init.B (nestD.take 3) [] true 0 0 nestF 0 = er m'.lowerRob ∧
    robBound .LINEAR Globals.init.B (nestD.take 3) [] false 0 0 nestF 0 = er m'.upperRob := by
  obtain ⟨g', m', v, h1, h2, h3⟩ := C62_partial .init (mon .LINEAR nestF (nestD.take 3)) 2 nestF 0 0
    (begun_prefix (R := [[4, 1, 0]]) (by decide +kernel) nestF_ready) (plain_okTo _ _ ⟨trivial, trivial⟩)
  exact ⟨g', m', v, h1, h2 (nest_sound (Or.inr rfl) true), h3 (nest_sound (Or.inr rfl) false)⟩

/-- `not ev_[0,3] x > 0 and alw_[1,2] ((ev_[0,2] (x > 0 or y > 0)) or x > 0)`. -/
def sideF : Tr := .and .init (.not .init (evT 0 3 (above sx 0)))
  (alwT 1 2 (.or .init (evT 0 2 (.or .init (above sx 0) (above sy 0))) (above sx 0)))

theorem sideF_ready : Ready .LINEAR 2 Globals.init.B (mon .LINEAR sideF cutD) sideF 0 0 := by
  have hr := cutF_ready.rows
  have hh : ∀ row, cutD.head? = some row → rowTime row ≤ 0 := by
    intro row h
    simp only [cutD, List.head?_cons, Option.some.injEq] at h
    subst h
    decide +kernel
  have ha : ∀ T : Tr, T = sx ∨ T = sy → ∀ t, 0 ≤ t →
      -Globals.init.B ≤ margin .greater (expr .LINEAR cutD [] T t) (expr .LINEAR cutD [] (num 0) t) ∧
      margin .greater (expr .LINEAR cutD [] T t) (expr .LINEAR cutD [] (num 0) t) ≤ Globals.init.B := by
    intro T hT t ht
    have hA : IsAffine T ∧ IsAffine (num 0) := by rcases hT with rfl | rfl <;> exact ⟨trivial, trivial⟩
    refine trace_abs hr hh (by decide) hA ?_ t ht
    rcases hT with rfl | rfl <;> decide +kernel
  have b0 : ∀ a b : ℚ, bound [] (lit a b).beginStr (lit a b).begin = a := fun _ _ => rfl
  have b1 : ∀ a b : ℚ, bound [] (lit a b).stopStr (lit a b).stop = b := fun _ _ => rfl
  refine ⟨rfl, rfl, rfl, rfl, hr, ?_, ?_, le_rfl, le_rfl, ?_⟩
  · exact ⟨⟨by decide +kernel, by decide +kernel, ⟨1, rfl, by decide, by decide⟩, trivial⟩,
      by decide +kernel, by decide +kernel, ⟨by decide +kernel, by decide +kernel,
        ⟨⟨1, rfl, by decide, by decide⟩, trivial⟩, ⟨2, rfl, by decide, by decide⟩, trivial⟩,
      ⟨1, rfl, by decide, by decide⟩, trivial⟩
  · simp only [mon, sideF, alwT, evT, above, AtomsWithin, b0, b1]
    exact ⟨fun t h _ => ha _ (Or.inl rfl) t (by linarith),
      ⟨fun t h _ => ha _ (Or.inl rfl) t (by linarith), fun t h _ => ha _ (Or.inr rfl) t (by linarith)⟩,
      fun t h _ => ha _ (Or.inl rfl) t (by linarith)⟩
  · exact ⟨⟨_, 0, rfl, rfl, by decide +kernel⟩, ⟨_, 5, rfl, rfl, by decide +kernel⟩⟩

theorem side_started (p : Bool) : Started (lastTime (cutD.take 3)) [] p 0 sideF := by
  have : lastTime (cutD.take 3) = 2 := by decide +kernel
  rw [this]
  exact ⟨Or.inr (by decide +kernel), ⟨Or.inr (by decide +kernel), Or.inr (by decide +kernel)⟩,
    Or.inr (by decide +kernel)⟩

theorem side_offEdge (p : Bool) : OffEdge (lastTime (cutD.take 3)) [] p 0 0 sideF := by
  have : lastTime (cutD.take 3) = 2 := by decide +kernel
  rw [this]
  cases p
  · exact ⟨⟨trivial, by decide +kernel⟩, ⟨⟨⟨trivial, trivial⟩, by decide +kernel⟩, trivial⟩, by decide +kernel⟩
  · exact ⟨⟨trivial, by decide +kernel⟩, ⟨⟨⟨trivial, trivial⟩, by decide +kernel⟩, trivial⟩, by decide +kernel⟩

theorem side_plain : PlainAtoms sideF :=
  ⟨⟨trivial, trivial⟩, ⟨⟨trivial, trivial⟩, trivial, trivial⟩, trivial, trivial⟩

theorem side_joined : Joined false sideF :=
  ⟨⟨trivial, nofun⟩, ⟨⟨⟨trivial, trivial⟩, fun _ => trivial⟩, trivial⟩, fun _ => trivial⟩

example : ∃ g' m' v, (mon .LINEAR sideF (cutD.take 3)).evalRob1 .init 0 = (g', m', .ok v) ∧
    er m'.lowerRob ≤ rob .LINEAR cutD [] sideF 0 ∧ rob .LINEAR cutD [] sideF 0 ≤ er m'.upperRob :=
  C25_C26_flat_partial .init (mon .LINEAR sideF (cutD.take 3)) 2 sideF 0 (cutD.drop 3) (by decide +kernel)
    sideF_ready side_plain side_joined side_started side_offEdge

example : ∃ g' m' v, (mon .LINEAR sideF (cutD.take 3)).evalRob1 .init 0 = (g', m', .ok v) ∧
    robBound .LINEAR Globals.init.B (cutD.take 3) [] true 0 0 sideF 0 = er m'.lowerRob := by
  obtain ⟨g', m', v, h1, h2, _⟩ := C62_flat_partial .init (mon .LINEAR sideF (cutD.take 3)) 2 sideF 0
    (begun_prefix (R := cutD.drop 3) (by decide +kernel) sideF_ready)
    side_plain side_joined
  exact ⟨g', m', v, h1, h2 (side_started true) (side_offEdge true)⟩

/-- C62 is false: an atom that the data has not reached gets the upper bound -10000, not 10000. -/
theorem C62_false : ¬ C62_full := by
  intro h
  have h1 := (h .init ((mon .LINEAR (above sx 0) (upD.take 2)).evalRob1 .init 5).1
    (mon .LINEAR (above sx 0) (upD.take 2))
    ((mon .LINEAR (above sx 0) (upD.take 2)).evalRob1 .init 5).2.1 2 (above sx 0) 5 1
    (begun_prefix (m := mon .LINEAR (above sx 0) (upD.take 2)) (R := [[5, 1, 0]]) (by decide +kernel) upF_ready)
    ⟨trivial, trivial⟩ (Prod.ext rfl (Prod.ext rfl (by decide +kernel)))).2
  rw [show ((mon .LINEAR (above sx 0) (upD.take 2)).evalRob1 .init 5).2.1.upperRob = -10000 from by
    decide +kernel] at h1
  simp only [above, robBound] at h1
  rw [if_pos (by decide +kernel)] at h1
  have h1 := er_inj h1
  revert h1
  decide +kernel

end Props
end STLRom
