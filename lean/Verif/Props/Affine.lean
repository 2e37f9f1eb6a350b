import Verif.Props.UntilRun
import Verif.Proofs.AffineRun

/-!
# Properties C72 and C73: later traces and other units

A trace that starts later, evaluated as much later, gives the same numbers; a trace in other
units, with the constants of the formula in these units, gives the numbers in these units.
-/

namespace STLRom
namespace Props
open Signal Spec

/-- The full claim of C72, for every formula and every time. -/
def C72_full : Prop := ∀ (g : Globals) (m : Monitor) (T : Tr) (c s e : ℚ), m.formula = some T →
  (Monitor.evalRob g { m with data := moved c 1 m.data } (s + c) (e + c)).2.2 = (m.evalRob g s e).2.2

/-- C72 for formulas without `until` over declared signals, with both interpolations, every
semantics, every trace, covering or not, also with rows of different lengths: moving every row and the
interval of evaluation by `c`, earlier or later, changes neither the outcome, faults included, nor
the bounds, and moves the signal of the formula by `c`.  Missing from the full claim: formulas with
`until` (`C72_false`), negative times of evaluation (`C72_negative_false`). -/
theorem C72_partial (g : Globals) (m : Monitor) (n : ℕ) (T : Tr) (c s e : ℚ)
    (hm : m.formula = some T) (hT : IsFormula n m.params T)
    (hs : 0 ≤ s) (hs' : 0 ≤ s + c) (he : 0 ≤ e) (he' : 0 ≤ e + c) :
    let r := m.evalRob g s e
    let r' := Monitor.evalRob g { m with data := moved c 1 m.data } (s + c) (e + c)
    r'.2.2 = r.2.2 ∧ r'.2.1.lowerRob = r.2.1.lowerRob ∧ r'.2.1.upperRob = r.2.1.upperRob ∧
      ∀ v, r.2.2 = .ok v → r'.2.1.getSignal = r.2.1.getSignal.map (movedSignal c 1) := by
  have h := Monitor.evalRob_af (c := c) one_pos (P' := m.params) g m T s e hm (.inl rfl)
    (Tr.scalable_one T) (Tr.afOk_formula T s e hT hs hs' he he')
  have em : ({ m with data := moved c 1 m.data, params := m.params, formula := some (scaleTree 1 T) } : Monitor) =
      { m with data := moved c 1 m.data } := by
    rw [Tr.scaleTree_one, ← hm]
  have eg : ({ g with B := 1 * g.B } : Globals) = g := by
    rw [one_mul]
  rw [em, eg] at h
  simp only [one_mul] at h
  have e0 : ∀ x : M ℚ, x.map (fun v => v) = x := fun x => by cases x <;> rfl
  rw [e0] at h
  refine ⟨h.1, ?_⟩
  cases hr : (m.evalRob g s e).2.2 with
  | ok v => exact ⟨(h.2 v hr).1, (h.2 v hr).2.1, fun w _ => (h.2 v hr).2.2⟩
  | error f =>
    have h1 := h.1
    rw [hr] at h1
    have key : ∀ (m' : Monitor) (s e : ℚ), (m'.evalRob g s e).2.2 = .error f →
        (m'.evalRob g s e).2.1.lowerRob = m'.lowerRob ∧ (m'.evalRob g s e).2.1.upperRob = m'.upperRob := by
      intro m' s e hf
      unfold Monitor.evalRob at hf ⊢
      cases hT' : m'.formula with
      | none => exact ⟨rfl, rfl⟩
      | some T' =>
        rw [hT'] at hf
        simp only at hf ⊢
        cases hrun : Monitor.run3 ⟨g.B, m'.sem, m'.ip, m'.data, m'.params⟩
            (Monitor.prepare m'.params s e T') with
        | error f' => exact ⟨rfl, rfl⟩
        | ok q => rw [hrun] at hf; cases hf
    obtain ⟨a1, a2⟩ := key m s e hr
    obtain ⟨b1, b2⟩ := key _ _ _ h1
    exact ⟨b1.trans a1.symm, b2.trans a2.symm, fun w hw => by cases hw⟩

/-- `ev_[0,2] (x > 1 and not (alw_[1,2] y > 0))`. -/
def movF : Tr := evT 0 2 (.and .init (above sx 1) (.not .init (alwT 1 2 (above sy 0))))

/-- Five rows. -/
def movD : List (List ℚ) := [[0, 3, -2], [1, 6, 7], [3, -4, 5], [8, 2, 9], [11, 0, 0]]

example : IsFormula 2 [] movF := by
  refine ⟨by decide, by decide, ⟨⟨1, rfl, by decide, by decide⟩, trivial⟩, by decide, by decide,
    ⟨2, rfl, by decide, by decide⟩, trivial⟩

/-- The evaluation of the moved trace at the moved times gives the same number, and the premises
hold with times that move in both directions. -/
example : ((mon .LINEAR movF movD).evalRob .init 2 3).2.2 =
    (Monitor.evalRob .init (mon .LINEAR movF (moved 5 1 movD)) 7 8).2.2 ∧
    ((mon .LINEAR movF movD).evalRob .init 2 3).2.2 = .ok (-5) := by decide +kernel

/-- `x > 0 until_[0,2] y > 0`. -/
def movU : Tr := .untl .init (above sx 0) ⟨0, 2, "", ""⟩ (above sy 0)

/-- A trace that ends before the interval of `until` does. -/
def movE : List (List ℚ) := [[0, 1, 1], [1, 1, 1]]

/-- With `until` the choice of the algorithm depends on absolute times (src/robustness.cpp:387
compares the end of the signals with the bound `b` of the interval): the trace evaluates at 0 to 1,
and the same trace 3 later has undefined behaviour at 3. -/
theorem C72_false : ¬ C72_full := by
  intro h
  have := h .init (mon .LINEAR movU movE) movU 3 0 0 rfl
  revert this
  decide +kernel

/-- The two evaluations of `C72_false`. -/
theorem C72_false_values : ((mon .LINEAR movU movE).evalRob .init 0 0).2.2 = .ok 1 ∧
    ((mon .LINEAR movU (moved 3 1 movE)).evalRob .init 3 3).2.2 = .error .ub := by decide +kernel

/-- At negative times of evaluation no row is read, although the trace has rows there: the loops that
read the rows start at time 0 (src/stl_atom.cpp:78,120).  So moving a trace and the times of evaluation
below 0 changes the outcome, here to undefined behaviour, also without `until`. -/
theorem C72_negative_false : ¬ ∀ (g : Globals) (m : Monitor) (n : ℕ) (T : Tr) (c s e : ℚ),
    m.formula = some T → IsFormula n m.params T →
      (Monitor.evalRob g { m with data := moved c 1 m.data } (s + c) (e + c)).2.2 = (m.evalRob g s e).2.2 := by
  intro h
  have := h .init (mon .LINEAR (above sx 0) [[0, 5, 0], [4, 6, 0]]) 2 (above sx 0) (-3) 2 2 rfl
    ⟨⟨1, rfl, by decide, by decide⟩, trivial⟩
  revert this
  decide +kernel

/-- C73: other units.  Multiplying all values in the rows, all constants of the formula and the
number `Signal::BigM` by `k > 0` multiplies the outcome by `k`, and faults stay as they are;
after a successful evaluation the bounds and the signal of the formula are multiplied too.  This is for
every formula, `until` included, that multiplies no two expressions, both interpolations, every
trace and every interval of evaluation. -/
theorem C73_scale (g : Globals) (m : Monitor) (T : Tr) (P' : Assoc ℚ) (k s e : ℚ) (hk : 0 < k)
    (hm : m.formula = some T) (hsem : m.sem = .SPACE) (hT : Scalable k m.params P' T) :
    let r := m.evalRob g s e
    let r' := Monitor.evalRob { g with B := k * g.B }
      { m with data := moved 0 k m.data, params := P', formula := some (scaleTree k T) } s e
    r'.2.2 = r.2.2.map (k * ·) ∧
      ∀ v, r.2.2 = .ok v → r'.2.1.lowerRob = k * r.2.1.lowerRob ∧ r'.2.1.upperRob = k * r.2.1.upperRob ∧
        r'.2.1.getSignal = r.2.1.getSignal.map (movedSignal 0 k) := by
  have h := Monitor.evalRob_af (c := 0) hk (P' := P') g m T s e hm (.inr hsem) hT (Tr.afOk_scaled T s e hT)
  simp only [add_zero] at h
  exact h

/-- `alw_[0,a] (x > lim until_[1,2] |y| < 3)`, with a named bound and a named constant. -/
def scaF : Tr := .alw .init ⟨0, 0, "", "a"⟩ (.untl .init (.atom .init .greater sx (.const .init "lim" 0 none))
  ⟨1, 2, "", ""⟩ (.atom .init .less (.abs .init sy) (num 3)))

example : Scalable (1 / 10) [("a", 2), ("lim", 1)] [("a", 2), ("lim", 1 / 10)] scaF := by
  refine ⟨rfl, rfl, rfl, rfl, ⟨trivial, by unfold Scalable; decide +kernel⟩, trivial, rfl⟩

example : ({ mon .LINEAR scaF movD with params := [("a", 2), ("lim", 1)] }.evalRob .init 0 1).2.2 = .ok (-5) ∧
    (Monitor.evalRob ⟨1000, .SPACE, .LINEAR⟩ { mon .LINEAR (scaleTree (1 / 10) scaF) (moved 0 (1 / 10) movD) with
      params := [("a", 2), ("lim", 1 / 10)] } 0 1).2.2 = .ok (-1 / 2) := by decide +kernel

/-- The number `Signal::BigM` has to be in the same units: it is the upper bound a trace that ends
early gives, whatever the units of the values are. -/
theorem C73_needs_bigM : ¬ ∀ (g : Globals) (m : Monitor) (T : Tr) (P' : Assoc ℚ) (k s e : ℚ), 0 < k →
    m.formula = some T → m.sem = .SPACE → Scalable k m.params P' T →
      (Monitor.evalRob g { m with data := moved 0 k m.data, params := P', formula := some (scaleTree k T) }
        s e).2.1.upperRob = k * (m.evalRob g s e).2.1.upperRob := by
  intro h
  have := h .init (mon .LINEAR (evT 1 2 (above sx 0)) [[0, 5, 0], [1, 6, 0]]) (evT 1 2 (above sx 0)) [] 2 0 0
    (by decide) rfl rfl ⟨rfl, rfl, trivial, rfl⟩
  revert this
  decide +kernel

end Props
end STLRom
