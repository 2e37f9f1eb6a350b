import Verif.Proofs.Mono
import Verif.Props.Joined
import Verif.Props.Step
import Verif.Props.Online
import Verif.Props.UntilTop

/-!
# Property C75: larger margins never give a smaller result
-/

namespace STLRom
namespace Props
open Signal Spec

/-- The full claim for the until-free fragment over atoms that compare signals and constants: if two
traces have the same times, and in every row the margins of the comparisons that count positively are
at most as large in the first as in the second (and at least as large for the others), then the first
evaluation does not return more than the second. -/
def C75_full : Prop := ∀ (g1 g1' g2 g2' : Globals) (m1 m1' m2 m2' : Monitor) (n : ℕ) (T : Tr)
    (t0 v1 v2 : ℚ),
  Ready .LINEAR n g1.B m1 T t0 t0 → Ready .LINEAR n g2.B m2 T t0 t0 → PlainAtoms T →
    m1.params = m2.params → m1.data.map (·.head?) = m2.data.map (·.head?) →
    SampledUp m1.data m2.data m1.params true T →
    m1.evalRob1 g1 t0 = (g1', m1', .ok v1) → m2.evalRob1 g2 t0 = (g2', m2', .ok v2) → v1 ≤ v2

theorem rowTimes {D D' : List (List ℚ)} (ht : D.map (·.head?) = D'.map (·.head?)) :
    D.map rowTime = D'.map rowTime := by
  have e : ∀ D : List (List ℚ), D.map rowTime = (D.map (·.head?)).map (·.getD 0) := by
    intro D
    rw [List.map_map]
    refine List.map_congr_left fun row _ => ?_
    cases row <;> rfl
  rw [e, e, ht]

theorem lastTimes {D D' : List (List ℚ)} (ht : D.map (·.head?) = D'.map (·.head?)) :
    lastTime D = lastTime D' := by
  have e : ∀ D : List (List ℚ), lastTime D = ((D.map (·.head?)).getLast?.join).getD 0 := by
    intro D
    rw [lastTime, List.getLast?_map]
    cases D.getLast? <;> rfl
  rw [e, e, ht]

theorem firstRow {D : List (List ℚ)} {s : ℚ} (h : ∃ row t, D.head? = some row ∧ row.head? = some t ∧ t ≤ s) :
    D ≠ [] ∧ ∀ row, D.head? = some row → rowTime row ≤ s := by
  obtain ⟨row', t, h1, h2, h3⟩ := h
  refine ⟨by rintro rfl; simp at h1, fun row hr => ?_⟩
  rw [hr] at h1
  obtain rfl := Option.some.inj h1
  cases row <;> simp_all [rowTime]

/-- C75 for formulas that meet `NoLongSlope` on both traces.  Missing from the full claim: the other
formulas, for some of which it fails (`C75_false`). -/
theorem C75_partial (g1 g1' g2 g2' : Globals) (m1 m1' m2 m2' : Monitor) (n : ℕ) (T : Tr) (t0 v1 v2 : ℚ)
    (h1 : Ready .LINEAR n g1.B m1 T t0 t0) (a1 : AtomsOk m1.data m1.params t0 t0 T)
    (n1 : NoLongSlope .LINEAR m1.data m1.params t0 t0 T)
    (h2 : Ready .LINEAR n g2.B m2 T t0 t0) (a2 : AtomsOk m2.data m2.params t0 t0 T)
    (n2 : NoLongSlope .LINEAR m2.data m2.params t0 t0 T)
    (hp : m1.params = m2.params) (ht : m1.data.map (·.head?) = m2.data.map (·.head?))
    (hd : SampledUp m1.data m2.data m1.params true T)
    (e1 : m1.evalRob1 g1 t0 = (g1', m1', .ok v1)) (e2 : m2.evalRob1 g2 t0 = (g2', m2', .ok v2)) :
    v1 ≤ v2 := by
  have r1 := evalRob_exact_ret h1 a1 n1 e1
  have r2 := evalRob_exact_ret h2 a2 n2 e2
  obtain ⟨hne, h0⟩ := firstRow h1.covers.1
  have := rob_up (atomsUp_linear h1.rows h2.rows (rowTimes ht) hne h0 (atomsOk_affine _ _ h1.shape a1) hd)
    h1.shape.onward t0 le_rfl
  rw [r1, hp, r2] at this
  exact er_le.1 this

/-- C75 for formulas whose nested temporal operators have Boolean operands; here numbers are returned,
and the bounds are equal to them.  Missing: the other formulas (`C75_false`). -/
theorem C75_boolean_partial (g1 g2 : Globals) (m1 m2 : Monitor) (n : ℕ) (T : Tr) (t0 : ℚ)
    (h1 : Ready .LINEAR n g1.B m1 T t0 t0) (h2 : Ready .LINEAR n g2.B m2 T t0 t0)
    (ha : PlainAtoms T) (hj : Joined false T) (hp : m1.params = m2.params)
    (ht : m1.data.map (·.head?) = m2.data.map (·.head?))
    (hd : SampledUp m1.data m2.data m1.params true T) :
    ∃ g1' m1' v1 g2' m2' v2, m1.evalRob1 g1 t0 = (g1', m1', .ok v1) ∧
      m2.evalRob1 g2 t0 = (g2', m2', .ok v2) ∧ v1 ≤ v2 := by
  obtain ⟨n1, _⟩ := slope_joined (ip := .LINEAR) (D := m1.data) h1.shape hj fun _ => rfl
  obtain ⟨n2, _⟩ := slope_joined (ip := .LINEAR) (D := m2.data) h2.shape hj fun _ => rfl
  obtain ⟨g1', m1', v1, e1, _⟩ := C20_boolean_partial g1 m1 n T t0 h1 ha hj
  obtain ⟨g2', m2', v2, e2, _⟩ := C20_boolean_partial g2 m2 n T t0 h2 ha hj
  exact ⟨g1', m1', v1, g2', m2', v2, e1, e2, C75_partial g1 g1' g2 g2' m1 m1' m2 m2' n T t0 v1 v2
    h1 (plain_ok _ _ ha) n1 h2 (plain_ok _ _ ha) n2 hp ht hd e1 e2⟩

/-- C75 with PREVIOUS interpolation, for formulas that meet `StepOk` on both traces.  Missing: the
formulas that do not. -/
theorem C75_previous_partial (g1 g1' g2 g2' : Globals) (m1 m1' m2 m2' : Monitor) (n : ℕ) (T : Tr)
    (s e v1 v2 : ℚ)
    (h1 : Ready .PREVIOUS n g1.B m1 T s e) (a1 : StepOk m1.data m1.params s e T)
    (h2 : Ready .PREVIOUS n g2.B m2 T s e) (a2 : StepOk m2.data m2.params s e T)
    (hp : m1.params = m2.params) (ht : m1.data.map (·.head?) = m2.data.map (·.head?))
    (hd : SampledUp m1.data m2.data m1.params true T)
    (e1 : m1.evalRob g1 s e = (g1', m1', .ok v1)) (e2 : m2.evalRob g2 s e = (g2', m2', .ok v2)) :
    v1 ≤ v2 := by
  have r1 := evalRob_step h1 a1 e1
  have r2 := evalRob_step h2 a2 e2
  obtain ⟨hne, h0⟩ := firstRow h1.covers.1
  have := rob_up (atomsUp_previous (rowTimes ht) hne h0 h1.shape hd) h1.shape.onward s le_rfl
  rw [r1, hp, r2] at this
  exact er_le.1 this

/-- C75 with `until` outside the temporal operators.  Missing: `until` below temporal operators, and the
formulas excluded by the conditions of C67. -/
theorem C75_until_partial (g1 g2 : Globals) (m1 m2 : Monitor) (n : ℕ) (T : Tr) (t : ℚ)
    (h1 : TopReady n g1.B m1 T t) (i1 : BeginsInside .LINEAR g1.B m1.data m1.params t T)
    (h2 : TopReady n g2.B m2 T t) (i2 : BeginsInside .LINEAR g2.B m2.data m2.params t T)
    (hu : Untrimmed m1.params t t T)
    (hp : m1.params = m2.params) (ht : m1.data.map (·.head?) = m2.data.map (·.head?))
    (hd : SampledUp m1.data m2.data m1.params true T) :
    ∃ g1' m1' v1 g2' m2' v2, m1.evalRob1 g1 t = (g1', m1', .ok v1) ∧
      m2.evalRob1 g2 t = (g2', m2', .ok v2) ∧ v1 ≤ v2 ∧ m1'.lowerRob ≤ m2'.lowerRob ∧
      m1'.upperRob ≤ m2'.upperRob := by
  obtain ⟨g1', m1', v1, e1, r1, -, l1, u1⟩ := evalRob_top h1 hu i1
  obtain ⟨g2', m2', v2, e2, r2, -, l2, u2⟩ := evalRob_top h2 (hp ▸ hu) i2
  obtain ⟨hne, h0⟩ := firstRow h1.covers.1
  have := rob_up (atomsUp_linear h1.rows h2.rows (rowTimes ht) hne h0
    (outside_affine h1.shape h1.sampled) hd) h1.shape.onward t le_rfl
  rw [r1, hp, r2] at this
  have := er_le.1 this
  exact ⟨g1', m1', v1, g2', m2', v2, e1, e2, this, by rw [l1, l2]; exact this, by rw [u1, u2]; exact this⟩

/-- The bounds on a trace that need not be complete: raising the margins lowers neither bound.
Missing: the cases that `Sound` excludes and `until`. -/
theorem C75_bounds_partial (g : Globals) (m1 m2 : Monitor) (n : ℕ) (T : Tr) (s e : ℚ)
    (h1 : Begun .LINEAR n g.B m1 T s e) (k1 : AtomsOkTo m1.data m1.params s e T)
    (h2 : Begun .LINEAR n g.B m2 T s e) (k2 : AtomsOkTo m2.data m2.params s e T)
    (hp : m1.params = m2.params) (ht : m1.data.map (·.head?) = m2.data.map (·.head?))
    (hd : SampledUp m1.data m2.data m1.params true T) :
    ∃ g1' m1' v1 g2' m2' v2, m1.evalRob g s e = (g1', m1', .ok v1) ∧
      m2.evalRob g s e = (g2', m2', .ok v2) ∧
      (Sound g.B m1.data m1.params true s e T → Sound g.B m2.data m2.params true s e T →
        m1'.lowerRob ≤ m2'.lowerRob) ∧
      (Sound g.B m1.data m1.params false s e T → Sound g.B m2.data m2.params false s e T →
        m1'.upperRob ≤ m2'.upperRob) := by
  obtain ⟨g1', m1', v1, e1, b1⟩ := evalRob_bounds h1 k1
  obtain ⟨g2', m2', v2, e2, b2⟩ := evalRob_bounds h2 k2
  obtain ⟨hne, h0⟩ := firstRow h1.first
  have up : ∀ q, LeIf true (robBound .LINEAR g.B m1.data m1.params q s e T s)
      (robBound .LINEAR g.B m2.data m1.params q s e T s) := fun q =>
    robBound_up (lastTimes ht) (atomsUp_linear h1.rows h2.rows (rowTimes ht) hne h0
      (okTo_affine _ _ h1.shape k1) hd) h1.shape.onward s le_rfl
  refine ⟨g1', m1', v1, g2', m2', v2, e1, e2, fun s1 s2 => ?_, fun s1 s2 => ?_⟩
  · have := up true
    rw [b1 true s1, hp, b2 true s2] at this
    exact er_le.1 this
  · have := up false
    rw [b1 false s1, hp, b2 false s2] at this
    exact er_le.1 this

/-! ## Examples -/

/-- `exD2` is `exD` with one value of `x` raised. -/
example : (3 : ℚ) ≤ 3 :=
  C75_partial .init (exM.evalRob1 .init 0).1 .init ((mon .LINEAR exF exD2).evalRob1 .init 0).1
    exM (exM.evalRob1 .init 0).2.1 (mon .LINEAR exF exD2)
    ((mon .LINEAR exF exD2).evalRob1 .init 0).2.1 2 exF 0 3 3
    exM_ready exM_ok exM_slope exM2_ready
    ⟨Or.inl ⟨trivial, trivial⟩, Or.inl ⟨trivial, trivial⟩⟩ exM2_slope rfl (by decide +kernel)
    ⟨show ∀ row ∈ exD.zip exD2, margin .greater (rowExpr [] row.1 sx) (rowExpr [] row.1 (num 1)) ≤
        margin .greater (rowExpr [] row.2 sx) (rowExpr [] row.2 (num 1)) by decide +kernel,
      show ∀ row ∈ exD.zip exD2, margin .greater (rowExpr [] row.1 sy) (rowExpr [] row.1 (num 0)) ≤
        margin .greater (rowExpr [] row.2 sy) (rowExpr [] row.2 (num 0)) by decide +kernel⟩
    (Prod.ext rfl (Prod.ext rfl (by decide +kernel)))
    (Prod.ext rfl (Prod.ext rfl (by decide +kernel)))

example : ∃ g1' m1' v1 g2' m2' v2, (mon .LINEAR joinF badD2).evalRob1 .init 0 = (g1', m1', .ok v1) ∧
    (mon .LINEAR joinF badD).evalRob1 .init 0 = (g2', m2', .ok v2) ∧ v1 ≤ v2 :=
  C75_boolean_partial .init .init _ _ 2 joinF 0 (joinF_ready (Or.inr rfl) le_rfl (by norm_num))
    (joinF_ready (Or.inl rfl) le_rfl (by norm_num)) joinF_plain (joinF_joined false) rfl (by decide +kernel)
    ⟨⟨show ∀ row ∈ badD2.zip badD, margin .greater (rowExpr [] row.1 sx) (rowExpr [] row.1 (num 0)) ≤
        margin .greater (rowExpr [] row.2 sx) (rowExpr [] row.2 (num 0)) by decide +kernel,
      show ∀ row ∈ badD2.zip badD, margin .greater (rowExpr [] row.1 sy) (rowExpr [] row.1 (num 9)) ≤
        margin .greater (rowExpr [] row.2 sy) (rowExpr [] row.2 (num 9)) by decide +kernel⟩,
      show ∀ row ∈ badD2.zip badD, margin .greater (rowExpr [] row.1 sy) (rowExpr [] row.1 (num 0)) ≤
        margin .greater (rowExpr [] row.2 sy) (rowExpr [] row.2 (num 0)) by decide +kernel⟩

/-- `ev_[0,1] (not x < 0)`. -/
def upEvF : Tr := evT 0 1 (.not .init (.atom .init .less sx (num 0)))

theorem upEv_ready (D : List (List ℚ)) (hD : D = exD ∨ D = exD2) :
    Ready .PREVIOUS 2 Globals.init.B (mon .PREVIOUS upEvF D) upEvF 0 0 := by
  have hr : WellShaped 2 D := by rcases hD with rfl | rfl; exacts [exD_rows, exD2_rows]
  refine ⟨rfl, rfl, rfl, rfl, hr, ?_, ?_, le_rfl, le_rfl, ?_⟩
  · exact ⟨le_refl (0 : ℚ), (by decide +kernel : (0 : ℚ) ≤ 1), ⟨1, rfl, by decide, by decide⟩, trivial⟩
  · intro t h _
    have h : (0 : ℚ) ≤ t := le_trans (by decide +kernel : (0 : ℚ) ≤ 0 + 0) h
    obtain ⟨r, i, j⟩ := mixAt_prev t D (by rcases hD with rfl | rfl <;> decide) (by
      intro row hrow
      refine le_trans ?_ h
      rcases hD with rfl | rfl <;> simp only [exD, exD2, List.head?_cons, Option.some.injEq] at hrow <;>
        subst hrow <;> decide +kernel)
    show -Globals.init.B ≤ margin .less (expr .PREVIOUS D [] sx t) (expr .PREVIOUS D [] (num 0) t) ∧
      margin .less (expr .PREVIOUS D [] sx t) (expr .PREVIOUS D [] (num 0) t) ≤ Globals.init.B
    rw [expr_prevRow (n := 2) (T := sx) j ⟨1, rfl, by decide, by decide⟩, expr_prevRow (n := 2) (T := num 0) j trivial]
    have hm := List.mem_of_getElem? i
    have : ∀ r ∈ D, -Globals.init.B ≤ margin .less (rowExpr [] r sx) (rowExpr [] r (num 0)) ∧
        margin .less (rowExpr [] r sx) (rowExpr [] r (num 0)) ≤ Globals.init.B := by
      rcases hD with rfl | rfl <;> decide +kernel
    exact this r hm
  · rcases hD with rfl | rfl <;> exact ⟨⟨_, 0, rfl, rfl, by decide +kernel⟩, ⟨_, 4, rfl, rfl, by decide +kernel⟩⟩

example : (2 : ℚ) ≤ 5 / 2 :=
  C75_previous_partial .init ((mon .PREVIOUS upEvF exD).evalRob .init 0 0).1 .init
    ((mon .PREVIOUS upEvF exD2).evalRob .init 0 0).1
    (mon .PREVIOUS upEvF exD) ((mon .PREVIOUS upEvF exD).evalRob .init 0 0).2.1 (mon .PREVIOUS upEvF exD2)
    ((mon .PREVIOUS upEvF exD2).evalRob .init 0 0).2.1 2 upEvF 0 0 2 (5 / 2)
    (upEv_ready _ (Or.inl rfl)) (Or.inl ⟨trivial, trivial⟩) (upEv_ready _ (Or.inr rfl))
    (Or.inl ⟨trivial, trivial⟩) rfl (by decide +kernel)
    (show ∀ row ∈ exD.zip exD2, margin .less (rowExpr [] row.2 sx) (rowExpr [] row.2 (num 0)) ≤
        margin .less (rowExpr [] row.1 sx) (rowExpr [] row.1 (num 0)) by decide +kernel)
    (Prod.ext rfl (Prod.ext rfl (by decide +kernel)))
    (Prod.ext rfl (Prod.ext rfl (by decide +kernel)))

theorem upUntil_ready (D : List (List ℚ)) (hD : D = exD ∨ D = exD2) :
    TopReady 2 Globals.init.B (mon .LINEAR (xUy 0 2) D) (xUy 0 2) 0 ∧
    BeginsInside .LINEAR Globals.init.B D [] 0 (xUy 0 2) := by
  have hr : WellShaped 2 D := by rcases hD with rfl | rfl; exacts [exD_rows, exD2_rows]
  have hh : ∀ row, D.head? = some row → rowTime row ≤ 0 := by
    intro row hrow
    rcases hD with rfl | rfl <;> simp only [exD, exD2, List.head?_cons, Option.some.injEq] at hrow <;>
      subst hrow <;> decide +kernel
  have hx := trace_abs (P := []) (K := 3) hr hh (by rcases hD with rfl | rfl <;> decide) (k := .greater) (l := sx)
    (r := num 0) ⟨trivial, trivial⟩ (by rcases hD with rfl | rfl <;> decide +kernel)
  have hy := trace_abs (P := []) (K := 3) hr hh (by rcases hD with rfl | rfl <;> decide) (k := .greater) (l := sy)
    (r := num 0) ⟨trivial, trivial⟩ (by rcases hD with rfl | rfl <;> decide +kernel)
  have B3 : (3 : ℚ) < Globals.init.B := by decide +kernel
  have wide : ∀ v : ℚ, -3 ≤ v ∧ v ≤ 3 → -Globals.init.B ≤ v ∧ v ≤ Globals.init.B := fun v hv =>
    ⟨by linarith [hv.1], by linarith [hv.2]⟩
  have inside : ∀ v : ℚ, -3 ≤ v ∧ v ≤ 3 → Inside Globals.init.B (er v) := by
    intro v hv
    refine ⟨lt_of_le_of_ne (er_le.2 (by linarith [hv.1])) fun e => ?_,
      lt_of_le_of_ne (er_le.2 (by linarith [hv.2])) fun e => ?_⟩
    · have := er_inj e; linarith [hv.1]
    · have := er_inj e; linarith [hv.2]
  refine ⟨⟨rfl, rfl, rfl, rfl, hr, ?_, ?_, ?_, ⟨trivial, trivial⟩, le_rfl, ?_⟩, inside _ (hx 0 le_rfl),
    inside _ (hy _ (by decide +kernel : (0 : ℚ) ≤ 0 + 0))⟩
  · exact ⟨le_refl (0 : ℚ), (by decide +kernel : (0 : ℚ) < 2), ⟨⟨1, rfl, by decide, by decide⟩, trivial⟩,
      ⟨2, rfl, by decide, by decide⟩, trivial⟩
  · exact ⟨Or.inl ⟨trivial, trivial⟩, Or.inl ⟨trivial, trivial⟩⟩
  · refine ⟨fun t h _ => ?_, fun t h _ => ?_⟩
    · exact wide _ (hx t h)
    · exact wide _ (hy t (le_trans (by decide +kernel : (0 : ℚ) ≤ 0 + 0) h))
  · rcases hD with rfl | rfl <;> exact ⟨⟨_, 0, rfl, rfl, by decide +kernel⟩, ⟨_, 4, rfl, rfl, by decide +kernel⟩⟩

example : ∃ g1' m1' v1 g2' m2' v2, (mon .LINEAR (xUy 0 2) exD).evalRob1 .init 0 = (g1', m1', .ok v1) ∧
    (mon .LINEAR (xUy 0 2) exD2).evalRob1 .init 0 = (g2', m2', .ok v2) ∧ v1 ≤ v2 ∧
    m1'.lowerRob ≤ m2'.lowerRob ∧ m1'.upperRob ≤ m2'.upperRob :=
  C75_until_partial .init .init _ _ 2 (xUy 0 2) 0 (upUntil_ready _ (Or.inl rfl)).1 (upUntil_ready _ (Or.inl rfl)).2
    (upUntil_ready _ (Or.inr rfl)).1 (upUntil_ready _ (Or.inr rfl)).2 ⟨trivial, trivial⟩ rfl (by decide +kernel)
    ⟨show ∀ row ∈ exD.zip exD2, margin .greater (rowExpr [] row.1 sx) (rowExpr [] row.1 (num 0)) ≤
        margin .greater (rowExpr [] row.2 sx) (rowExpr [] row.2 (num 0)) by decide +kernel,
      show ∀ row ∈ exD.zip exD2, margin .greater (rowExpr [] row.1 sy) (rowExpr [] row.1 (num 0)) ≤
        margin .greater (rowExpr [] row.2 sy) (rowExpr [] row.2 (num 0)) by decide +kernel⟩

/-- The first three rows of `cutD` and two more, with `y` raised. -/
def cutUpD : List (List ℚ) := [[0, -1, 1], [1, -1, 0], [2, -1, 2], [3, 3, 0], [5, 3, 0]]

theorem cutUp_ready : Ready .LINEAR 2 Globals.init.B (mon .LINEAR sideF cutUpD) sideF 0 0 := by
  have hr : WellShaped 2 cutUpD := by
    refine ⟨by decide +kernel, ?_⟩
    simp only [cutUpD, List.pairwise_cons, List.mem_cons, List.not_mem_nil, or_false]
    simp
    norm_num
  have hh : ∀ row, cutUpD.head? = some row → rowTime row ≤ 0 := by
    intro row h
    simp only [cutUpD, List.head?_cons, Option.some.injEq] at h
    subst h
    decide +kernel
  have hx := trace_abs (P := []) (K := Globals.init.B) hr hh (by decide) (k := .greater) (l := sx)
    (r := num 0) ⟨trivial, trivial⟩ (by decide +kernel)
  have hy := trace_abs (P := []) (K := Globals.init.B) hr hh (by decide) (k := .greater) (l := sy)
    (r := num 0) ⟨trivial, trivial⟩ (by decide +kernel)
  have b0 : ∀ a b : ℚ, bound [] (lit a b).beginStr (lit a b).begin = a := fun _ _ => rfl
  have b1 : ∀ a b : ℚ, bound [] (lit a b).stopStr (lit a b).stop = b := fun _ _ => rfl
  refine ⟨rfl, rfl, rfl, rfl, hr, sideF_ready.shape, ?_, le_rfl, le_rfl, ?_⟩
  · simp only [mon, sideF, alwT, evT, above, AtomsWithin, b0, b1]
    exact ⟨fun t h _ => hx t (by linarith), ⟨fun t h _ => hx t (by linarith), fun t h _ => hy t (by linarith)⟩,
      fun t h _ => hx t (by linarith)⟩
  · exact ⟨⟨_, 0, rfl, rfl, by decide +kernel⟩, ⟨_, 5, rfl, rfl, by decide +kernel⟩⟩

example : ∃ g1' m1' v1 g2' m2' v2,
    (mon .LINEAR sideF (cutD.take 3)).evalRob .init 0 0 = (g1', m1', .ok v1) ∧
    (mon .LINEAR sideF (cutUpD.take 3)).evalRob .init 0 0 = (g2', m2', .ok v2) ∧
    m1'.lowerRob ≤ m2'.lowerRob ∧ m1'.upperRob ≤ m2'.upperRob := by
  have hl : lastTime (cutUpD.take 3) = lastTime (cutD.take 3) := by decide +kernel
  have sn : ∀ p, Sound Globals.init.B (cutD.take 3) [] p 0 0 sideF := fun p =>
    have := noLong_joined (B := Globals.init.B) (D := cutD.take 3) (p := p) (s := 0) (e := 0) sideF_ready.shape
      side_joined fun _ => rfl
    ⟨side_started p, side_offEdge p, this.2, this.1⟩
  have sn' : ∀ p, Sound Globals.init.B (cutUpD.take 3) [] p 0 0 sideF := fun p =>
    have := noLong_joined (B := Globals.init.B) (D := cutUpD.take 3) (p := p) (s := 0) (e := 0) sideF_ready.shape
      side_joined fun _ => rfl
    ⟨hl ▸ side_started p, hl ▸ side_offEdge p, this.2, this.1⟩
  obtain ⟨g1', m1', v1, g2', m2', v2, e1, e2, l, u⟩ := C75_bounds_partial .init (mon .LINEAR sideF (cutD.take 3))
    (mon .LINEAR sideF (cutUpD.take 3)) 2 sideF 0 0
    (begun_prefix (m := mon .LINEAR sideF (cutD.take 3)) (R := cutD.drop 3) (by decide +kernel) sideF_ready)
    (plain_okTo _ _ side_plain)
    (begun_prefix (m := mon .LINEAR sideF (cutUpD.take 3)) (R := cutUpD.drop 3) (by decide +kernel) cutUp_ready)
    (plain_okTo _ _ side_plain) rfl (by decide +kernel)
    ⟨show ∀ row ∈ (cutD.take 3).zip (cutUpD.take 3), margin .greater (rowExpr [] row.2 sx) (rowExpr [] row.2 (num 0)) ≤
        margin .greater (rowExpr [] row.1 sx) (rowExpr [] row.1 (num 0)) by decide +kernel,
      ⟨show ∀ row ∈ (cutD.take 3).zip (cutUpD.take 3), margin .greater (rowExpr [] row.1 sx) (rowExpr [] row.1 (num 0)) ≤
        margin .greater (rowExpr [] row.2 sx) (rowExpr [] row.2 (num 0)) by decide +kernel,
      show ∀ row ∈ (cutD.take 3).zip (cutUpD.take 3), margin .greater (rowExpr [] row.1 sy) (rowExpr [] row.1 (num 0)) ≤
        margin .greater (rowExpr [] row.2 sy) (rowExpr [] row.2 (num 0)) by decide +kernel⟩,
      show ∀ row ∈ (cutD.take 3).zip (cutUpD.take 3), margin .greater (rowExpr [] row.1 sx) (rowExpr [] row.1 (num 0)) ≤
        margin .greater (rowExpr [] row.2 sx) (rowExpr [] row.2 (num 0)) by decide +kernel⟩
  exact ⟨g1', m1', v1, g2', m2', v2, e1, e2, l (sn true) (sn' true), u (sn false) (sn' false)⟩

/-! ## A larger trace with a smaller result -/

/-- `alw_[0,2] ((ev_[0,3] (alw_[0,1] (x > 0))) or y > 0)`. -/
def riseF : Tr := alwT 0 2 (.or .init (evT 0 3 (alwT 0 1 (above sx 0))) (above sy 0))

/-- Two straight lines: `x = t`, `y = 8 - 5 t`. -/
def riseD : List (List ℚ) := [[0, 0, 8], [9 / 2, 9 / 2, -29 / 2], [10, 10, -42]]

/-- Like `riseD`, with `x` lowered by 1/100 in the second row. -/
def riseLowD : List (List ℚ) := [[0, 0, 8], [9 / 2, 449 / 100, -29 / 2], [10, 10, -42]]

theorem rise_ready (D : List (List ℚ)) (hD : D = riseD ∨ D = riseLowD) :
    Ready .LINEAR 2 Globals.init.B (mon .LINEAR riseF D) riseF 0 0 := by
  have hr : WellShaped 2 D := by
    rcases hD with rfl | rfl <;> refine ⟨by decide +kernel, ?_⟩ <;>
      simp only [riseD, riseLowD, List.pairwise_cons, List.mem_cons, List.not_mem_nil, or_false] <;>
      simp <;> norm_num
  have hh : ∀ row, D.head? = some row → rowTime row ≤ 0 := by
    intro row hrow
    rcases hD with rfl | rfl <;> simp only [riseD, riseLowD, List.head?_cons, Option.some.injEq] at hrow <;>
      subst hrow <;> decide +kernel
  refine ⟨rfl, rfl, rfl, rfl, hr, ?_, ?_, le_rfl, le_rfl, ?_⟩
  · exact ⟨le_refl (0 : ℚ), (by decide +kernel : (0 : ℚ) ≤ 2), ⟨le_refl (0 : ℚ), (by decide +kernel : (0 : ℚ) ≤ 3),
      le_refl (0 : ℚ), (by decide +kernel : (0 : ℚ) ≤ 1), ⟨1, rfl, by decide, by decide⟩, trivial⟩,
      ⟨2, rfl, by decide, by decide⟩, trivial⟩
  · refine ⟨fun t h _ => ?_, fun t h _ => ?_⟩
    · exact trace_abs hr hh (by rcases hD with rfl | rfl <;> decide) (k := .greater) (l := sx) (r := num 0)
        ⟨trivial, trivial⟩ (by rcases hD with rfl | rfl <;> decide +kernel) t (le_trans (by decide +kernel : (0 : ℚ) ≤ 0 + 0 + 0 + 0) h)
    · exact trace_abs hr hh (by rcases hD with rfl | rfl <;> decide) (k := .greater) (l := sy) (r := num 0)
        ⟨trivial, trivial⟩ (by rcases hD with rfl | rfl <;> decide +kernel) t (le_trans (by decide +kernel : (0 : ℚ) ≤ 0 + 0) h)
  · rcases hD with rfl | rfl <;> exact ⟨⟨_, 0, rfl, rfl, by decide +kernel⟩, ⟨_, 10, rfl, rfl, by decide +kernel⟩⟩

/-- C75 is false: raising one value of `x` by 1/100, onto the straight line, lowers the number
returned for `alw_[0,2] ((ev_[0,3] (alw_[0,1] (x > 0))) or y > 0)` from 10327/2699 (about 3.83) to 3. -/
theorem C75_false : ¬ C75_full := by
  intro h
  have := h .init ((mon .LINEAR riseF riseLowD).evalRob1 .init 0).1 .init
    ((mon .LINEAR riseF riseD).evalRob1 .init 0).1
    (mon .LINEAR riseF riseLowD) ((mon .LINEAR riseF riseLowD).evalRob1 .init 0).2.1
    (mon .LINEAR riseF riseD) ((mon .LINEAR riseF riseD).evalRob1 .init 0).2.1 2 riseF 0
    (10327 / 2699) 3 (rise_ready _ (Or.inr rfl)) (rise_ready _ (Or.inl rfl))
    ⟨⟨trivial, trivial⟩, trivial, trivial⟩ rfl (by decide +kernel)
    ⟨show ∀ row ∈ riseLowD.zip riseD, margin .greater (rowExpr [] row.1 sx) (rowExpr [] row.1 (num 0)) ≤
        margin .greater (rowExpr [] row.2 sx) (rowExpr [] row.2 (num 0)) by decide +kernel,
      show ∀ row ∈ riseLowD.zip riseD, margin .greater (rowExpr [] row.1 sy) (rowExpr [] row.1 (num 0)) ≤
        margin .greater (rowExpr [] row.2 sy) (rowExpr [] row.2 (num 0)) by decide +kernel⟩
    (Prod.ext rfl (Prod.ext rfl (by decide +kernel)))
    (Prod.ext rfl (Prod.ext rfl (by decide +kernel)))
  linarith

end Props
end STLRom
