import Verif.Model.Signal

/-!
# Interpolating a list of (time, value) pairs
-/

namespace STLRom
namespace Spec

/-- The function described by a list of (time, value) pairs with increasing times, from the
first time on: straight lines between consecutive pairs (LINEAR) or the earlier value
(PREVIOUS); the last value is kept after the last time. -/
def interp : Interpol → List (ℚ × ℚ) → ℚ → Option ℚ
  | _, [], _ => none
  | _, [(t0, v0)], t => if t0 ≤ t then some v0 else none
  | ip, (t0, v0) :: (t1, v1) :: r, t =>
    if t < t0 then none
    else if t < t1 then
      match ip with
      | .LINEAR => some (v0 + (v1 - v0) / (t1 - t0) * (t - t0))
      | .PREVIOUS => some v0
    else interp ip ((t1, v1) :: r) t

/-- The pairs that come later than all pairs kept before them. -/
def accepted : List (ℚ × ℚ) → List (ℚ × ℚ)
  | l => l.foldl (fun acc p => match acc.getLast? with
    | none => [p]
    | some q => if q.1 < p.1 then acc ++ [p] else acc) []

end Spec
end STLRom
