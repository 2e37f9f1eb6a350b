import Verif.Spec.Runs

/-!
# When a formula can be evaluated in the LEFT_TIME semantics
-/

namespace STLRom
namespace Spec

/-- Every comparison is evaluated over a proper interval in which there is data, and every `ev` has a proper
window.  The left operand of a comparison is a single signal or constant, or the data has a row at the
end of the evaluation interval (as in `AtomsReach`). -/
def LeftWindows (D : List (List ℚ)) (P : Assoc ℚ) : ℚ → ℚ → Tr → Prop
  | s, e, .atom _ _ l _ => s < e ∧ (∃ row ∈ D, ∃ t, row.head? = some t ∧ s < t) ∧ (IsLeaf l ∨ RowAt D e)
  | s, e, .not _ c => LeftWindows D P s e c
  | s, e, .and _ l r | s, e, .or _ l r | s, e, .implies _ l r => LeftWindows D P s e l ∧ LeftWindows D P s e r
  | s, e, .ev _ I c => 0 < bound P I.stopStr I.stop ∧
    LeftWindows D P (s + bound P I.beginStr I.begin) (e + bound P I.stopStr I.stop) c
  | s, e, .alw _ I c =>
    LeftWindows D P (s + bound P I.beginStr I.begin) (e + bound P I.stopStr I.stop) c
  | _, _, _ => False

/-- The first comparison of the formula is evaluated at a single time, or from a time on after which there is no
row. -/
def FirstNoSpan (D : List (List ℚ)) (P : Assoc ℚ) : ℚ → ℚ → Tr → Prop
  | s, e, .atom _ _ _ _ => e ≤ s ∨ ∀ row ∈ D, ∀ t, row.head? = some t → t ≤ s
  | s, e, .not _ c => FirstNoSpan D P s e c
  | s, e, .and _ l _ | s, e, .or _ l _ | s, e, .implies _ l _ => FirstNoSpan D P s e l
  | s, e, .ev _ I c | s, e, .alw _ I c =>
    FirstNoSpan D P (s + bound P I.beginStr I.begin) (e + bound P I.stopStr I.stop) c
  | s, e, .untl _ l I _ => FirstNoSpan D P s (e + bound P I.stopStr I.stop) l
  | _, _, _ => False

end Spec
end STLRom
