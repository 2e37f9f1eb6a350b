import Mathlib.Order.Bounds.Basic
import Verif.Spec.Signal

/-!
# Temporal operators on signals
-/

namespace STLRom
namespace Spec

/-- The values a signal takes on the closed interval `[s, t]`. -/
def valuesOn (x : Signal) (s t : ℚ) : Set ℚ := {v | ∃ r, s ≤ r ∧ r ≤ t ∧ value x r = some v}

/-- Strictly increasing sample times: the form of every signal built by `append_sample`. -/
def StrictTimes (x : Signal) : Prop := x.samples.Pairwise fun p q => p.time < q.time

/-- A signal without jumps all of whose samples lie on its graph (several samples may share a
time): the form of the intermediate signals of a LINEAR evaluation. -/
structure OnGraph (x : Signal) : Prop where
  continuous : ∀ t, x.beginTime < t → t ≤ x.endTime → ContinuousAt x t
  samples : ∀ p ∈ x.samples, value x p.time = some p.value

/-- The signals the temporal operators are meant for. -/
structure Regular (x : Signal) : Prop extends Proper x where
  regular : StrictTimes x ∨ OnGraph x

/-- At time `t`, `z` has the least upper bound of `x` over `[s, u]`. -/
def SupAt (z : Signal) (t : ℚ) (x : Signal) (s u : ℚ) : Prop :=
  ∃ v, value z t = some v ∧ IsLUB (valuesOn x s u) v

/-- At time `t`, `z` has the greatest lower bound of `x` over `[s, u]`. -/
def InfAt (z : Signal) (t : ℚ) (x : Signal) (s u : ℚ) : Prop :=
  ∃ v, value z t = some v ∧ IsGLB (valuesOn x s u) v

/-- Known defect: cutting a signal at a time after its last sample loses the slope of that
sample (see C09).  The temporal operators cut at the window length after the begin time; this
says they cut at or before the last sample, or that there is no slope to lose, or that no cut
happens. -/
def CutSafe (x : Signal) (len : ℚ) : Prop :=
  0 < len → x.beginTime + len < x.endTime →
    (∃ p ∈ x.samples, x.beginTime + len ≤ p.time) ∨
      ∀ p, x.samples.getLast? = some p → p.derivative = 0

/-- What `until` from `t` with window `[lo, hi]` certifies: the numbers `w` for which at some
time `r` of the window `y` is at least `w`, `x` being at least `w` all the way from `t` to `r`. -/
def certified (x y : Signal) (t lo hi : ℚ) : Set ℚ :=
  {w | ∃ r, lo ≤ r ∧ r ≤ hi ∧ (∃ u, value y r = some u ∧ w ≤ u) ∧
    ∀ q, t ≤ q → q ≤ r → ∀ c, value x q = some c → w ≤ c}

/-- At time `t`, `z` has the least upper bound over `r` in `[lo, hi]` of the smaller of `y` at `r`
and the greatest lower bound of `x` over `[t, r]`. -/
def UntilAt (z : Signal) (t : ℚ) (x y : Signal) (lo hi : ℚ) : Prop :=
  ∃ v, value z t = some v ∧ IsLUB (certified x y t lo hi) v

/-- Known defect of `until` (see C15): while `x` rises, a falling piece of `y` that began before
the piece of `x` is misread.  This says that does not occur: whenever a rising piece of `x`
begins, the falling pieces of `y` begun earlier are over. -/
def RisesClear (x y : Signal) : Prop :=
  ∀ p ∈ x.samples, 0 < p.derivative → p.time < min x.endTime y.endTime →
    ∀ q ∈ y.samples, q.derivative < 0 →
      q.time < max (max x.beginTime y.beginTime) p.time →
      ∃ r ∈ y.samples, q.time < r.time ∧ r.time ≤ max (max x.beginTime y.beginTime) p.time

end Spec
end STLRom
