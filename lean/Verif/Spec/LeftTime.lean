import Verif.Spec.Stl

/-!
# Left time robustness of a comparison over the data
-/

namespace STLRom
namespace Spec

/-- `f` is positive just after time `t`. -/
def PosAfter (f : ℚ → ℚ) (t : ℚ) : Prop := ∃ ε > 0, ∀ s, t < s → s < t + ε → 0 < f s

/-- `v` is the left time robustness of `f` at time `t`, looking back to time `b`: the time since the truth
of `f > 0` last changed, or since `b`, plus 1e-14; negative where `f > 0` is false.  Truth is read just
after each time. -/
def LeftTime (f : ℚ → ℚ) (b t v : ℚ) : Prop :=
  ∃ c, b ≤ c ∧ c ≤ t ∧ (∀ s, c ≤ s → s ≤ t → (PosAfter f s ↔ PosAfter f t)) ∧
    (c = b ∨ ∃ e, b ≤ e ∧ e < c ∧ ∀ s, e ≤ s → s < c → (PosAfter f s ↔ ¬ PosAfter f t)) ∧
    (PosAfter f t → v = 1 / 10 ^ 14 + (t - c)) ∧ (¬ PosAfter f t → v = -(1 / 10 ^ 14 + (t - c)))

/-- The values of the left time robustness of `f` from `s` on and before `e`, looking back to `b`. -/
def leftTimes (f : ℚ → ℚ) (b s e : ℚ) : Set ℚ := {v | ∃ t, s ≤ t ∧ t < e ∧ LeftTime f b t v}

/-- The margin of the comparison `l > r` or `l < r` in the data, with LINEAR interpolation. -/
def marginAt (D : List (List ℚ)) (P : Assoc ℚ) (k : Cmp) (l r : Tr) (t : ℚ) : ℚ :=
  margin k (expr .LINEAR D P l t) (expr .LINEAR D P r t)

/-- A monitor in LEFT_TIME mode with LINEAR interpolation whose rows cover the horizon of the formula `T`
at time `t`. -/
structure LeftReady (n : ℕ) (m : Monitor) (T : Tr) (t : ℚ) : Prop where
  formula : m.formula = some T
  sem : m.sem = .LEFT_TIME
  interpol : m.ip = .LINEAR
  names : m.params.lookup "" = none
  rows : WellShaped n m.data
  shape : IsFormula n m.params T
  atoms : AtomsOk m.data m.params t t T
  start : 0 ≤ t
  covers : Covers m.data t (t + reach m.params T)

end Spec
end STLRom
