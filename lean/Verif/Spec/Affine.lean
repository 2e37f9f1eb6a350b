import Verif.Spec.Stl

/-!
# Moving a trace in time and multiplying its values
-/

namespace STLRom
namespace Spec

/-- A row with its time moved by `c` and its values multiplied by `k`. -/
def movedRow (c k : ℚ) : List ℚ → List ℚ
  | [] => []
  | t :: vs => (t + c) :: vs.map (k * ·)

/-- Trace data with every row moved by `c` and multiplied by `k`. -/
def moved (c k : ℚ) (D : List (List ℚ)) : List (List ℚ) := D.map (movedRow c k)

/-- A signal moved by `c` and multiplied by `k`. -/
def movedSignal (c k : ℚ) (x : Signal) : Signal :=
  ⟨x.samples.map fun p => ⟨p.time + c, k * p.value, k * p.derivative⟩,
    x.beginTime + c, x.endTime + c⟩

/-- The formula with its constants multiplied by `k`.  (The number stored with a named
constant is not read by an evaluation, which takes it from the parameters.) -/
def scaleTree (k : ℚ) : Tr → Tr
  | .sig s v m t => .sig s v m t
  | .const s p v t => .const s p (k * v) t
  | .abs s c => .abs s (scaleTree k c)
  | .plus s l r => .plus s (scaleTree k l) (scaleTree k r)
  | .minus s l r => .minus s (scaleTree k l) (scaleTree k r)
  | .mult s l r => .mult s (scaleTree k l) (scaleTree k r)
  | .atom s o l r => .atom s o (scaleTree k l) (scaleTree k r)
  | .not s c => .not s (scaleTree k c)
  | .and s l r => .and s (scaleTree k l) (scaleTree k r)
  | .or s l r => .or s (scaleTree k l) (scaleTree k r)
  | .implies s l r => .implies s (scaleTree k l) (scaleTree k r)
  | .ev s I c => .ev s I (scaleTree k c)
  | .alw s I c => .alw s I (scaleTree k c)
  | .untl s l I r => .untl s (scaleTree k l) I (scaleTree k r)

/-- Under `P'` the constants of the formula are `k` times what they are under `P`, the bounds
of its intervals are the same, and it multiplies no two expressions unless `k = 1`. -/
def Scalable (k : ℚ) (P P' : Assoc ℚ) : Tr → Prop
  | .sig _ _ _ _ => True
  | .const _ p _ _ => P'.lookup p = (P.lookup p).map (k * ·)
  | .abs _ c | .not _ c => Scalable k P P' c
  | .plus _ l r | .minus _ l r | .atom _ _ l r | .and _ l r | .or _ l r | .implies _ l r =>
    Scalable k P P' l ∧ Scalable k P P' r
  | .mult _ l r => k = 1 ∧ Scalable k P P' l ∧ Scalable k P P' r
  | .ev _ I c | .alw _ I c => bound P' I.beginStr I.begin = bound P I.beginStr I.begin ∧
    bound P' I.stopStr I.stop = bound P I.stopStr I.stop ∧ Scalable k P P' c
  | .untl _ l I r => bound P' I.beginStr I.begin = bound P I.beginStr I.begin ∧
    bound P' I.stopStr I.stop = bound P I.stopStr I.stop ∧ Scalable k P P' l ∧ Scalable k P P' r

end Spec
end STLRom
