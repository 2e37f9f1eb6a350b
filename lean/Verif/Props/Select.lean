import Verif.Props.UntilRun
import Verif.Proofs.SelectRun

/-!
# Property C71: no new numbers

With piecewise constant signals, robustness is a minimum and maximum of margins of the comparisons
at the rows: evaluation returns one of these, up to sign.
-/

namespace STLRom
namespace Props
open Signal Spec

/-- The full claim, for both interpolations and without the values `B`, `-B` and 0. -/
def C71_full : Prop := ∀ (g : Globals) (m : Monitor) (n : ℕ) (T : Tr) (s e r : ℚ),
  m.formula = some T → m.sem = .SPACE → m.params.lookup "" = none → WellShaped n m.data → Declared n T →
    (m.evalRob g s e).2.2 = .ok r →
      ∀ x ∈ [r, (m.evalRob g s e).2.1.lowerRob, (m.evalRob g s e).2.1.upperRob],
        MarginOf m.data m.params T x ∨ MarginOf m.data m.params T (-x)

/-- C71 with `PREVIOUS` interpolation, for every formula, `until` included, every trace, covering or
not, and every interval: the returned number, both bounds, and every value in the signal of the
formula are margins of a comparison at a row, up to sign, or one of `B`, `-B`, 0.  Missing from the
full claim: `LINEAR` interpolation (`C71_false`), the values `B` and `-B`, which the bounds take on
traces that end early, and 0, which they take below `until` (`C71_zero_false`). -/
theorem C71_partial (g : Globals) (m : Monitor) (n : ℕ) (T : Tr) (s e r : ℚ)
    (hm : m.formula = some T) (hi : m.ip = .PREVIOUS) (hs : m.sem = .SPACE)
    (h0 : m.params.lookup "" = none) (hD : WellShaped n m.data) (hT : Declared n T)
    (h : (m.evalRob g s e).2.2 = .ok r) :
    Selected g.B m.data m.params T r ∧
    Selected g.B m.data m.params T (m.evalRob g s e).2.1.lowerRob ∧
    Selected g.B m.data m.params T (m.evalRob g s e).2.1.upperRob ∧
    ∃ z, (m.evalRob g s e).2.1.getSignal = .ok z ∧
      ∀ p ∈ z.samples, Selected g.B m.data m.params T p.value ∧ p.derivative = 0 := by
  have hV := vals_selected (P := m.params) g.B m.data T
  have hI : TIn (Selected g.B m.data m.params T) n m.data m.params (Monitor.prepare m.params s e T) :=
    tin_fresh (fresh_prepare m.params T s e) (declared_prepare T s e hT) fun x hx =>
      Or.inr (Or.inr (Or.inr (Or.inl ((marginOf_prepare h0 m.data T s e x).1 hx))))
  have key := run3_in (env := ⟨g.B, m.sem, m.ip, m.data, m.params⟩) hV hD hi hs hI
  unfold Monitor.evalRob at h ⊢
  rw [hm] at h ⊢
  simp only at h ⊢
  cases hr : Monitor.run3 ⟨g.B, m.sem, m.ip, m.data, m.params⟩ (Monitor.prepare m.params s e T) with
  | error f => rw [hr] at h; simp at h
  | ok q =>
    obtain ⟨T1, r1, lo, up⟩ := q
    obtain ⟨k1, k2, k3, k4⟩ := key _ hr
    rw [hr] at h
    simp only [Except.ok.injEq] at h
    subst h
    exact ⟨k2, k3, k4, _, rfl, k1.st.1⟩

/-- `alw_[0,2] (x > 1 until_[1,2] y > 0)`. -/
def selF : Tr := alwT 0 2 (.untl .init (above sx 1) ⟨1, 2, "", ""⟩ (above sy 0))

/-- Four rows. -/
def selD : List (List ℚ) := [[0, 3, -2], [1, 6, 7], [3, -4, 5], [8, 2, 9]]

theorem selD_rows : WellShaped 2 selD := by
  refine ⟨by decide +kernel, ?_⟩
  simp only [selD, List.pairwise_cons, List.mem_cons, List.not_mem_nil, or_false]
  simp
  norm_num

/-- On these rows `selF` evaluates to -5, which is `x - 1` in the third row. -/
example : ((mon .PREVIOUS selF selD).evalRob .init 0 1).2.2 = .ok (-5) ∧
    Selected Globals.init.B selD [] selF (-5) := by
  have h : ((mon .PREVIOUS selF selD).evalRob .init 0 1).2.2 = .ok (-5) := by decide +kernel
  exact ⟨h, (C71_partial .init (mon .PREVIOUS selF selD) 2 selF 0 1 (-5) rfl rfl rfl rfl selD_rows
    ⟨⟨⟨1, rfl, by decide, by decide⟩, trivial⟩, ⟨2, rfl, by decide, by decide⟩, trivial⟩ h).1⟩

/-- `Selected` is not met by every number: 4 is not a margin in these rows. -/
example : ¬ Selected Globals.init.B selD [] selF 4 := by
  simp only [Selected, MarginOf, selF, alwT, above, selD, List.mem_cons, List.not_mem_nil, or_false,
    exists_eq_or_imp, exists_eq_left]
  decide +kernel

/-- Two rows between which `x` and `y` cross. -/
def selX : List (List ℚ) := [[0, 5, -3], [4, -3, 5]]

/-- `alw_[0,4] (x > 0 or y > 0)`. -/
def selG : Tr := alwT 0 4 (.or .init (above sx 0) (above sy 0))

theorem selX_rows : WellShaped 2 selX := by
  refine ⟨by decide +kernel, ?_⟩
  simp [selX]

/-- C71 is false: with linear interpolation the value where two signals cross is returned. -/
theorem C71_false : ¬ C71_full := by
  intro h
  have h1 := h .init (mon .LINEAR selG selX) 2 selG 0 0 1 rfl rfl rfl selX_rows
    ⟨⟨⟨1, rfl, by decide, by decide⟩, trivial⟩, ⟨2, rfl, by decide, by decide⟩, trivial⟩
    (by decide +kernel) 1 (by simp)
  simp only [MarginOf, selG, alwT, above, selX, mon, List.mem_cons, List.not_mem_nil, or_false,
    exists_eq_or_imp, exists_eq_left] at h1
  revert h1
  decide +kernel

/-- 0 does turn up: after one row, `not ev_[0,2] (x > 1 until_[1,2] y > 0)` is 3 with upper bound 0,
though every margin is -3. -/
theorem C71_zero_false :
    results (mon .PREVIOUS (.not .init (evT 0 2 (.untl .init (above sx 1) ⟨1, 2, "", ""⟩ (above sy 0))))
      [[0, -2, -3]]) 0 = (.ok 3, -10000, 0) ∧
    ∀ x, MarginOf [[0, -2, -3]] []
      (.not .init (evT 0 2 (.untl .init (above sx 1) ⟨1, 2, "", ""⟩ (above sy 0)))) x → x = -3 := by
  refine ⟨by decide +kernel, fun x h => ?_⟩
  simp only [MarginOf, evT, above, List.mem_cons, List.not_mem_nil, or_false, exists_eq_left] at h
  rcases h with h | h
  · rw [h]; decide +kernel
  · rw [h]; decide +kernel

end Props
end STLRom
