import Verif.Model.Transducer

/-!
# The evaluation interval of every subformula
-/

namespace STLRom
namespace Spec

/-- The value of an interval bound: the parameter of that name if there is one. -/
def bound (P : Assoc ℚ) (name : String) (literal : ℚ) : ℚ := (P.lookup name).getD literal

/-- Every node's `start_time` and `end_time` are what the interval `[s, e]` at the root
demands: signal and Boolean operators hand their own interval down, a temporal operator with
bounds `[a, b]` needs its child on `[s + a, e + b]`, and `until` needs its left child on
`[s, e + b]`. -/
def HasHorizon (P : Assoc ℚ) (s e : ℚ) : Tr → Prop
  | .sig st _ _ _ | .const st _ _ _ => st.start = s ∧ st.stop = e
  | .abs st c | .not st c => st.start = s ∧ st.stop = e ∧ HasHorizon P s e c
  | .plus st l r | .minus st l r | .mult st l r | .atom st _ l r | .and st l r | .or st l r
  | .implies st l r =>
    st.start = s ∧ st.stop = e ∧ HasHorizon P s e l ∧ HasHorizon P s e r
  | .ev st I c | .alw st I c =>
    st.start = s ∧ st.stop = e ∧
      HasHorizon P (s + bound P I.beginStr I.begin) (e + bound P I.stopStr I.stop) c
  | .untl st l I r =>
    st.start = s ∧ st.stop = e ∧
      HasHorizon P s (e + bound P I.stopStr I.stop) l ∧
      HasHorizon P (s + bound P I.beginStr I.begin) (e + bound P I.stopStr I.stop) r

/-- A tree with the evaluation intervals erased. -/
def eraseHorizon : Tr → Tr
  | .sig st v m t => .sig { st with start := 0, stop := 0 } v m t
  | .const st p v t => .const { st with start := 0, stop := 0 } p v t
  | .abs st c => .abs { st with start := 0, stop := 0 } (eraseHorizon c)
  | .plus st l r => .plus { st with start := 0, stop := 0 } (eraseHorizon l) (eraseHorizon r)
  | .minus st l r => .minus { st with start := 0, stop := 0 } (eraseHorizon l) (eraseHorizon r)
  | .mult st l r => .mult { st with start := 0, stop := 0 } (eraseHorizon l) (eraseHorizon r)
  | .atom st k l r =>
    .atom { st with start := 0, stop := 0 } k (eraseHorizon l) (eraseHorizon r)
  | .not st c => .not { st with start := 0, stop := 0 } (eraseHorizon c)
  | .and st l r => .and { st with start := 0, stop := 0 } (eraseHorizon l) (eraseHorizon r)
  | .or st l r => .or { st with start := 0, stop := 0 } (eraseHorizon l) (eraseHorizon r)
  | .implies st l r =>
    .implies { st with start := 0, stop := 0 } (eraseHorizon l) (eraseHorizon r)
  | .ev st I c => .ev { st with start := 0, stop := 0 } I (eraseHorizon c)
  | .alw st I c => .alw { st with start := 0, stop := 0 } I (eraseHorizon c)
  | .untl st l I r =>
    .untl { st with start := 0, stop := 0 } (eraseHorizon l) I (eraseHorizon r)

end Spec
end STLRom
