import Verif.Props.Negation
import Verif.Props.UntilRun
import Verif.Proofs.Beyond

/-!
# Property C30: rows past the horizon do not matter
-/

namespace STLRom
namespace Props
open Signal Spec

/-- Evaluating `m` and `m'` on `[s, e]` has the same outcome, a fault included, and leaves the same
robustness and bounds behind. -/
def SameOutcome (g : Globals) (m m' : Monitor) (s e : ℚ) : Prop :=
  (m.evalRob g s e).2.2 = (m'.evalRob g s e).2.2 ∧
    (m.evalRob g s e).2.1.rob = (m'.evalRob g s e).2.1.rob ∧
    (m.evalRob g s e).2.1.lowerRob = (m'.evalRob g s e).2.1.lowerRob ∧
    (m.evalRob g s e).2.1.upperRob = (m'.evalRob g s e).2.1.upperRob

/-- The rows agree up to and including one after time `K`. -/
def SameBeyond (K : ℚ) (D D' : List (List ℚ)) : Prop :=
  ∃ P r S S', D = P ++ r :: S ∧ D' = P ++ r :: S' ∧ ∃ u, r.head? = some u ∧ K < u

/-- The full claim: any formula, any semantics and interpolation, rows that agree up to and
including one at or past the horizon. -/
def C30_full : Prop := ∀ (g : Globals) (m : Monitor) (n : ℕ) (T : Tr) (s e : ℚ) (D' : List (List ℚ)),
  m.formula = some T → AnyFormula n m.params T → WellShaped n m.data → WellShaped n D' →
    SameUntil (e + reach m.params T) m.data D' → SameOutcome g m { m with data := D' } s e

theorem isTerm_of_isExpr {n : ℕ} {T : Tr} (h : IsExpr n T) : IsTerm T := by
  induction T with
  | sig | const => trivial
  | abs _ c ih => exact ih h
  | plus _ l r ih1 ih2 | minus _ l r ih1 ih2 | mult _ l r ih1 ih2 => exact ⟨ih1 h.1, ih2 h.2⟩
  | _ => exact h.elim

theorem AnyFormula.isStl {n : ℕ} {P : Assoc ℚ} {T : Tr} (h : AnyFormula n P T) : IsStl T := by
  induction T with
  | atom _ k l r => exact ⟨isTerm_of_isExpr h.1, isTerm_of_isExpr h.2⟩
  | not _ c ih => exact ih h
  | ev _ I c ih | alw _ I c ih => exact ih h.2.2
  | and _ l r ih1 ih2 | or _ l r ih1 ih2 | implies _ l r ih1 ih2 => exact ⟨ih1 h.1, ih2 h.2⟩
  | untl _ l _ r ih1 ih2 => exact ⟨ih1 h.2.2.1, ih2 h.2.2.2⟩
  | _ => exact h.elim

theorem AnyFormula.forward {n : ℕ} {P : Assoc ℚ} {s e : ℚ} {T : Tr} (h : AnyFormula n P T) :
    Forward P (Monitor.prepare P s e T) := by
  unfold Monitor.prepare
  induction T generalizing s e with
  | atom => trivial
  | not _ c ih => exact ih h
  | ev _ I c ih => exact ⟨h.1, h.1.trans h.2.1, ih h.2.2⟩
  | alw _ I c ih => exact ih h.2.2
  | and _ l r ih1 ih2 | or _ l r ih1 ih2 | implies _ l r ih1 ih2 => exact ⟨ih1 h.1, ih2 h.2⟩
  | untl _ l _ r ih1 ih2 => exact ⟨ih1 h.2.2.1, ih2 h.2.2.2⟩
  | _ => exact h.elim

theorem reach_prepare (P Q : Assoc ℚ) (s e : ℚ) (T : Tr) :
    reach Q (Monitor.prepare P s e T) = reach Q T := by
  unfold Monitor.prepare
  induction T generalizing s e with
  | not _ c ih => exact ih _ _
  | ev _ I c ih | alw _ I c ih => exact congrArg (_ + ·) (ih _ _)
  | and _ l r ih1 ih2 | or _ l r ih1 ih2 | implies _ l r ih1 ih2 =>
    exact congrArg₂ max (ih1 _ _) (ih2 _ _)
  | untl _ l _ r ih1 ih2 => exact congrArg (_ + ·) (congrArg₂ max (ih1 _ _) (ih2 _ _))
  | _ => rfl

theorem sameOutcome_past {g : Globals} {m : Monitor} {n : ℕ} {T : Tr} {s e : ℚ}
    {D' : List (List ℚ)} (hm : m.formula = some T) (hF : AnyFormula n m.params T)
    (hD : WellShaped n m.data) (hD' : WellShaped n D')
    (hs : SamePast m.ip (e + reach m.params T) m.data D') :
    SameOutcome g m { m with data := D' } s e := by
  have h := run3_past (env := ⟨g.B, m.sem, m.ip, m.data, m.params⟩) (P := m.params) (D' := D') rfl hD
    hD' (isStl_prepare hF.isStl) hF.forward (fresh_prepare m.params T s e)
    (by rw [reach_prepare]; exact hs)
  unfold SameOutcome
  simp only [Monitor.evalRob, hm]
  rcases map_cases h with ⟨f, h1, h2⟩ | ⟨⟨T1, r, lo, up⟩, ⟨T2, r', lo', up'⟩, h1, h2, h3⟩
  · simp only [h1, h2]
    exact ⟨trivial, trivial, trivial, trivial⟩
  · simp only [Prod.mk.injEq] at h3
    obtain ⟨rfl, rfl, rfl⟩ := h3
    simp only [h1, h2]
    exact ⟨trivial, trivial, trivial, trivial⟩

/-- C30 in PREVIOUS mode, for every formula, `until` included, and every semantics: replacing or
appending rows after one at or past the horizon changes neither the outcome nor the bounds.
Missing: LINEAR mode with a row exactly at the horizon and none of the common rows past it. -/
theorem C30_previous_partial (g : Globals) (m : Monitor) (n : ℕ) (T : Tr) (s e : ℚ)
    (D' : List (List ℚ)) (hm : m.formula = some T) (hip : m.ip = .PREVIOUS)
    (hF : AnyFormula n m.params T) (hD : WellShaped n m.data) (hD' : WellShaped n D')
    (hs : SameUntil (e + reach m.params T) m.data D') : SameOutcome g m { m with data := D' } s e := by
  obtain ⟨Q, r, S, S', e1, e2, u, h1, h2⟩ := hs
  refine sameOutcome_past hm hF hD hD' ⟨Q, r, S, S', e1, e2, Or.inr ⟨hip, ?_⟩⟩
  cases r with
  | nil => simp at h1
  | cons a l => simp at h1; simpa [rowTime, h1] using h2

/-- C30 in either mode, for every formula, `until` included, and every semantics: replacing or
appending rows after one past the horizon changes neither the outcome nor the bounds.  Missing:
LINEAR mode with a row exactly at the horizon and none of the common rows past it. -/
theorem C30_partial (g : Globals) (m : Monitor) (n : ℕ) (T : Tr) (s e : ℚ) (D' : List (List ℚ))
    (hm : m.formula = some T) (hF : AnyFormula n m.params T) (hD : WellShaped n m.data)
    (hD' : WellShaped n D') (hs : SameBeyond (e + reach m.params T) m.data D') :
    SameOutcome g m { m with data := D' } s e := by
  obtain ⟨Q, r, S, S', e1, e2, u, h1, h2⟩ := hs
  refine sameOutcome_past hm hF hD hD' ⟨Q, r, S, S', e1, e2, Or.inl ?_⟩
  cases r with
  | nil => simp at h1
  | cons a l => simp at h1; simpa [rowTime, h1] using h2

/-- `ev_[0,1] (x > 0 until_[0,1] y > 0)`. -/
def evUF : Tr := evT 0 1 (.untl .init (above sx 0) ⟨0, 1, "", ""⟩ (above sy 0))

theorem evUF_any : AnyFormula 2 [] evUF := by
  refine ⟨by decide +kernel, by decide +kernel, by decide +kernel, by decide +kernel, ?_, ?_⟩
  · exact ⟨⟨1, rfl, by decide, by decide⟩, trivial⟩
  · exact ⟨⟨2, rfl, by decide, by decide⟩, trivial⟩

/-- Rows up to the horizon 2 of `evUF` and one beyond. -/
def evUD : List (List ℚ) := [[0, 3, -1], [1, 1, -2], [2, 2, 4], [3, 0, 1]]

theorem evUD_shape : WellShaped 2 evUD := by
  refine ⟨by decide +kernel, ?_⟩
  simp only [evUD, List.pairwise_cons, List.mem_cons, List.not_mem_nil, or_false]
  simp
  norm_num

theorem evUD_shape' : WellShaped 2 (evUD ++ [[4, -50, 100]]) := by
  refine ⟨by decide +kernel, ?_⟩
  simp only [evUD, List.cons_append, List.nil_append, List.pairwise_cons, List.mem_cons,
    List.not_mem_nil, or_false]
  simp
  norm_num

example : SameOutcome .init (mon .LINEAR evUF evUD)
    { mon .LINEAR evUF evUD with data := evUD ++ [[4, -50, 100]] } 0 0 :=
  C30_partial _ _ 2 _ _ _ _ rfl evUF_any evUD_shape evUD_shape'
    ⟨[[0, 3, -1], [1, 1, -2], [2, 2, 4]], [3, 0, 1], [], [[4, -50, 100]], rfl, rfl, 3, rfl,
      by decide +kernel⟩

/-- On these rows the evaluation returns: robustness 1, lower bound 1, upper bound 1. -/
example : ((mon .LINEAR evUF evUD).evalRob .init 0 0).2.2 = .ok 1 := by decide +kernel

/-- In PREVIOUS mode a row at the horizon is enough. -/
example : SameOutcome .init (mon .PREVIOUS evUF (evUD.take 3))
    { mon .PREVIOUS evUF (evUD.take 3) with data := evUD } 0 0 :=
  C30_previous_partial _ _ 2 _ _ _ _ rfl rfl evUF_any
    ⟨fun r hr => evUD_shape.1 r (List.mem_of_mem_take hr),
      evUD_shape.2.sublist (List.take_sublist _ _)⟩ evUD_shape
    ⟨[[0, 3, -1], [1, 1, -2]], [2, 2, 4], [], [[3, 0, 1]], rfl, rfl, 2, rfl, by decide +kernel⟩

end Props
end STLRom
