import Mathlib.Data.EReal.Operations
import Verif.Spec.Interp
import Verif.Spec.Horizon
import Verif.Spec.History

/-!
# Quantitative and Boolean semantics of STL over an interpolated trace
-/

namespace STLRom
namespace Spec

/-- A rational number as an extended real. -/
def er (v : ℚ) : EReal := ((v : ℝ) : EReal)

/-- The (time, value) pairs of column `i` of the data. -/
def column (D : List (List ℚ)) (i : ℕ) : List (ℚ × ℚ) :=
  D.map fun row => (row.getD 0 0, row.getD i 0)

/-- The function of time described by column `i`. -/
def trace (ip : Interpol) (D : List (List ℚ)) (i : ℕ) (t : ℚ) : ℚ :=
  (interp ip (column D i) t).getD 0

/-- The value of a constant leaf: a literal has no name, a name stands for the parameter. -/
def number (P : Assoc ℚ) (name : String) (literal : ℚ) : ℚ :=
  if name = "" then literal else (P.lookup name).getD 0

/-- A signal expression evaluated at a time. -/
def expr (ip : Interpol) (D : List (List ℚ)) (P : Assoc ℚ) : Tr → ℚ → ℚ
  | .sig _ v m _, t => trace ip D ((m.lookup v).getD 0) t
  | .const _ p v _, _ => number P p v
  | .abs _ c, t => |expr ip D P c t|
  | .plus _ l r, t => expr ip D P l t + expr ip D P r t
  | .minus _ l r, t => expr ip D P l t - expr ip D P r t
  | .mult _ l r, t => expr ip D P l t * expr ip D P r t
  | _, _ => 0

/-- How far an atom is from being violated. -/
def margin (k : Cmp) (u v : ℚ) : ℚ :=
  match k with
  | .less => v - u
  | .greater => u - v

/-- The robustness of a formula at a time. -/
noncomputable def rob (ip : Interpol) (D : List (List ℚ)) (P : Assoc ℚ) : Tr → ℚ → EReal
  | .atom _ k l r, t => er (margin k (expr ip D P l t) (expr ip D P r t))
  | .not _ c, t => -rob ip D P c t
  | .and _ l r, t => rob ip D P l t ⊓ rob ip D P r t
  | .or _ l r, t => rob ip D P l t ⊔ rob ip D P r t
  | .implies _ l r, t => -rob ip D P l t ⊔ rob ip D P r t
  | .ev _ I c, t =>
    ⨆ r ∈ Set.Icc (t + bound P I.beginStr I.begin) (t + bound P I.stopStr I.stop), rob ip D P c r
  | .alw _ I c, t =>
    ⨅ r ∈ Set.Icc (t + bound P I.beginStr I.begin) (t + bound P I.stopStr I.stop), rob ip D P c r
  | .untl _ l I r, t =>
    ⨆ u ∈ Set.Icc (t + bound P I.beginStr I.begin) (t + bound P I.stopStr I.stop),
      rob ip D P r u ⊓ ⨅ w ∈ Set.Icc t u, rob ip D P l w
  | _, _ => 0

/-- A signal expression whose signals have a column in every row. -/
def IsExpr (n : ℕ) : Tr → Prop
  | .sig _ v m _ => ∃ i, m.lookup v = some i ∧ 0 < i ∧ i ≤ n
  | .const _ _ _ _ => True
  | .abs _ c => IsExpr n c
  | .plus _ l r | .minus _ l r | .mult _ l r => IsExpr n l ∧ IsExpr n r
  | _ => False

/-- A signal expression. -/
def IsTerm : Tr → Prop
  | .sig _ _ _ _ | .const _ _ _ _ => True
  | .abs _ c => IsTerm c
  | .plus _ l r | .minus _ l r | .mult _ l r => IsTerm l ∧ IsTerm r
  | _ => False

/-- A formula: comparisons of signal expressions, combined by the operators of STL. -/
def IsStl : Tr → Prop
  | .atom _ _ l r => IsTerm l ∧ IsTerm r
  | .not _ c | .ev _ _ c | .alw _ _ c => IsStl c
  | .and _ l r | .or _ l r | .implies _ l r | .untl _ l _ r => IsStl l ∧ IsStl r
  | _ => False

/-- A formula without `until`, over signals with a column in every row, with interval bounds
`0 ≤ a ≤ b`. -/
def IsFormula (n : ℕ) (P : Assoc ℚ) : Tr → Prop
  | .atom _ _ l r => IsExpr n l ∧ IsExpr n r
  | .not _ c => IsFormula n P c
  | .and _ l r | .or _ l r | .implies _ l r => IsFormula n P l ∧ IsFormula n P r
  | .ev _ I c | .alw _ I c =>
    0 ≤ bound P I.beginStr I.begin ∧
      bound P I.beginStr I.begin ≤ bound P I.stopStr I.stop ∧ IsFormula n P c
  | _ => False

/-- A single signal or constant. -/
def IsLeaf : Tr → Prop
  | .sig _ _ _ _ | .const _ _ _ _ => True
  | _ => False

/-- No signals. -/
def IsConst : Tr → Prop
  | .const _ _ _ _ => True
  | .plus _ l r | .minus _ l r | .mult _ l r => IsConst l ∧ IsConst r
  | .abs _ c => IsConst c
  | _ => False

/-- Sums, differences and constant multiples of signals and constants. -/
def IsAffine : Tr → Prop
  | .sig _ _ _ _ | .const _ _ _ _ => True
  | .plus _ l r | .minus _ l r => IsAffine l ∧ IsAffine r
  | .mult _ l r => IsConst l ∧ IsAffine r ∨ IsAffine l ∧ IsConst r
  | .abs _ c => IsConst c
  | _ => False

/-- The data has a row at time `t`. -/
def RowAt (D : List (List ℚ)) (t : ℚ) : Prop := ∃ row ∈ D, row.head? = some t

/-- The atoms compare plain signals or constants, or affine expressions at whose evaluation
interval's end the data has a row.  (Otherwise the operators `+`, `-`, `*` lose the last
piece, see C53.) -/
def AtomsOk (D : List (List ℚ)) (P : Assoc ℚ) : ℚ → ℚ → Tr → Prop
  | s, e, .atom _ _ l r =>
    IsLeaf l ∧ IsLeaf r ∨ IsAffine l ∧ IsAffine r ∧ (s = e ∨ RowAt D e)
  | s, e, .not _ c => AtomsOk D P s e c
  | s, e, .and _ l r | s, e, .or _ l r | s, e, .implies _ l r =>
    AtomsOk D P s e l ∧ AtomsOk D P s e r
  | s, e, .ev _ I c | s, e, .alw _ I c =>
    AtomsOk D P (s + bound P I.beginStr I.begin) (e + bound P I.stopStr I.stop) c
  | s, e, .untl _ l I r =>
    AtomsOk D P s (e + bound P I.stopStr I.stop) l ∧
      AtomsOk D P (s + bound P I.beginStr I.begin) (e + bound P I.stopStr I.stop) r
  | _, _, _ => True

/-- Every atom stays within `±B` on its evaluation interval. -/
def AtomsWithin (ip : Interpol) (B : ℚ) (D : List (List ℚ)) (P : Assoc ℚ) : ℚ → ℚ → Tr → Prop
  | s, e, .atom _ k l r => ∀ t, s ≤ t → t ≤ e →
    -B ≤ margin k (expr ip D P l t) (expr ip D P r t) ∧
      margin k (expr ip D P l t) (expr ip D P r t) ≤ B
  | s, e, .not _ c => AtomsWithin ip B D P s e c
  | s, e, .and _ l r | s, e, .or _ l r | s, e, .implies _ l r =>
    AtomsWithin ip B D P s e l ∧ AtomsWithin ip B D P s e r
  | s, e, .ev _ I c | s, e, .alw _ I c =>
    AtomsWithin ip B D P (s + bound P I.beginStr I.begin) (e + bound P I.stopStr I.stop) c
  | s, e, .untl _ l I r =>
    AtomsWithin ip B D P s (e + bound P I.stopStr I.stop) l ∧
      AtomsWithin ip B D P (s + bound P I.beginStr I.begin) (e + bound P I.stopStr I.stop) r
  | _, _, _ => True

/-- The largest sum of interval ends along a branch: how far the formula looks ahead. -/
def reach (P : Assoc ℚ) : Tr → ℚ
  | .not _ c => reach P c
  | .and _ l r | .or _ l r | .implies _ l r => max (reach P l) (reach P r)
  | .ev _ I c | .alw _ I c => bound P I.stopStr I.stop + reach P c
  | .untl _ l I r => bound P I.stopStr I.stop + max (reach P l) (reach P r)
  | _ => 0

/-- The data reaches from `s` or earlier to `e` or later. -/
def Covers (D : List (List ℚ)) (s e : ℚ) : Prop :=
  (∃ row t, D.head? = some row ∧ row.head? = some t ∧ t ≤ s) ∧
  (∃ row t, D.getLast? = some row ∧ row.head? = some t ∧ e ≤ t)

/-- A comparison of two expressions. -/
def IsAtom : Tr → Prop
  | .atom _ _ _ _ => True
  | _ => False

/-- No atom directly under an `ev` has its signal shortened by the evaluation (known defect, see
C28): the interval of the `ev` is at least as long as the evaluation interval. -/
def Untrimmed (P : Assoc ℚ) : ℚ → ℚ → Tr → Prop
  | s, e, .not _ c => Untrimmed P s e c
  | s, e, .and _ l r | s, e, .or _ l r | s, e, .implies _ l r =>
    Untrimmed P s e l ∧ Untrimmed P s e r
  | s, e, .ev _ I c =>
    Untrimmed P (s + bound P I.beginStr I.begin) (e + bound P I.stopStr I.stop) c ∧
    (IsAtom c → e - bound P I.stopStr I.stop ≤ s + bound P I.beginStr I.begin)
  | s, e, .alw _ I c =>
    Untrimmed P (s + bound P I.beginStr I.begin) (e + bound P I.stopStr I.stop) c
  | s, e, .untl _ l I r =>
    Untrimmed P s (e + bound P I.stopStr I.stop) l ∧
      Untrimmed P (s + bound P I.beginStr I.begin) (e + bound P I.stopStr I.stop) r
  | _, _, _ => True

/-- The function does not run as one sloped straight line from before `c` to `e`. -/
def Bends (f : ℚ → EReal) (s c e : ℚ) : Prop :=
  ∀ r v d : ℚ, s ≤ r → r < c → (∀ t, r ≤ t → t ≤ e → f t = er (v + d * (t - r))) → d = 0

/-- The signal computed for a formula has a sample between `u` and `w`, the end of its interval:
an atom has one for every row, a Boolean operator puts one at the end. -/
def Marked (D : List (List ℚ)) (u w : ℚ) : Tr → Prop
  | .atom _ _ _ _ => ∃ row ∈ D, ∃ t, row.head? = some t ∧ u ≤ t ∧ t ≤ w
  | .not _ c => Marked D u w c
  | .and _ _ _ | .or _ _ _ | .implies _ _ _ => True
  | _ => False

/-- Known defect (C09, C12): the temporal operators lose the slope of their operand when it
runs as one straight line, without a sample, from before the end of the first window to the end
of its evaluation interval.  This says that no operand of a temporal operator does so.  At a
single time `s = e` it says nothing about the outermost temporal operators. -/
def NoLongSlope (ip : Interpol) (D : List (List ℚ)) (P : Assoc ℚ) : ℚ → ℚ → Tr → Prop
  | s, e, .not _ c => NoLongSlope ip D P s e c
  | s, e, .and _ l r | s, e, .or _ l r | s, e, .implies _ l r =>
    NoLongSlope ip D P s e l ∧ NoLongSlope ip D P s e r
  | s, e, .ev _ I c | s, e, .alw _ I c =>
    NoLongSlope ip D P (s + bound P I.beginStr I.begin) (e + bound P I.stopStr I.stop) c ∧
    (s < e → bound P I.beginStr I.begin < bound P I.stopStr I.stop →
      Marked D (s + bound P I.stopStr I.stop) (e + bound P I.stopStr I.stop) c ∨
      Bends (rob ip D P c) (s + bound P I.beginStr I.begin) (s + bound P I.stopStr I.stop)
        (e + bound P I.stopStr I.stop))
  | s, e, .untl _ l I r =>
    NoLongSlope ip D P s (e + bound P I.stopStr I.stop) l ∧
      NoLongSlope ip D P (s + bound P I.beginStr I.begin) (e + bound P I.stopStr I.stop) r
  | _, _, _ => True

/-- A conjunction, disjunction or implication, possibly negated. -/
def IsBoolean : Tr → Prop
  | .not _ c => IsBoolean c
  | .and _ _ _ | .or _ _ _ | .implies _ _ _ => True
  | _ => False

/-- No until, and every temporal operator inside another one has a Boolean operand
(`Joined false`); with `true`, every temporal operator has one. -/
def Joined : Bool → Tr → Prop
  | i, .not _ c => Joined i c
  | i, .and _ l r | i, .or _ l r | i, .implies _ l r => Joined i l ∧ Joined i r
  | i, .ev _ _ c | i, .alw _ _ c => Joined true c ∧ (i = true → IsBoolean c)
  | _, .untl _ _ _ _ => False
  | _, _ => True

/-- Shortly before `e` the function does not change any more. -/
def Settles (f : ℚ → EReal) (s e : ℚ) : Prop :=
  s < e → ∃ r, s ≤ r ∧ r < e ∧ ∀ t, r ≤ t → t ≤ e → f t = f e

/-- For step functions.  The atoms compare plain signals or constants, or expressions at whose
evaluation interval's end the data has a row (C53).  No operand of a Boolean operator jumps
exactly at the end of its evaluation interval (known defect C04: the closing value is lost). -/
def StepOk (D : List (List ℚ)) (P : Assoc ℚ) : ℚ → ℚ → Tr → Prop
  | s, e, .atom _ _ l r => IsLeaf l ∧ IsLeaf r ∨ s = e ∨ RowAt D e
  | s, e, .not _ c => StepOk D P s e c
  | s, e, .and _ l r | s, e, .or _ l r | s, e, .implies _ l r =>
    StepOk D P s e l ∧ StepOk D P s e r ∧
      Settles (rob .PREVIOUS D P l) s e ∧ Settles (rob .PREVIOUS D P r) s e
  | s, e, .ev _ I c | s, e, .alw _ I c =>
    StepOk D P (s + bound P I.beginStr I.begin) (e + bound P I.stopStr I.stop) c
  | _, _, _ => True

/-- No until, and no `and`, `or`, `=>` inside a temporal operator (`JoinsOutside false`); with
`true`, none at all.  Negations may occur anywhere. -/
def JoinsOutside : Bool → Tr → Prop
  | i, .not _ c => JoinsOutside i c
  | i, .and _ l r | i, .or _ l r | i, .implies _ l r =>
    i = false ∧ JoinsOutside i l ∧ JoinsOutside i r
  | _, .ev _ _ c | _, .alw _ _ c => JoinsOutside true c
  | _, .untl _ _ _ _ => False
  | _, _ => True

/-- Boolean satisfaction of a formula at a time. -/
def Sat (ip : Interpol) (D : List (List ℚ)) (P : Assoc ℚ) : Tr → ℚ → Prop
  | .atom _ .less l r, t => expr ip D P l t < expr ip D P r t
  | .atom _ .greater l r, t => expr ip D P l t > expr ip D P r t
  | .not _ c, t => ¬ Sat ip D P c t
  | .and _ l r, t => Sat ip D P l t ∧ Sat ip D P r t
  | .or _ l r, t => Sat ip D P l t ∨ Sat ip D P r t
  | .implies _ l r, t => Sat ip D P l t → Sat ip D P r t
  | .ev _ I c, t => ∃ r, t + bound P I.beginStr I.begin ≤ r ∧
      r ≤ t + bound P I.stopStr I.stop ∧ Sat ip D P c r
  | .alw _ I c, t => ∀ r, t + bound P I.beginStr I.begin ≤ r →
      r ≤ t + bound P I.stopStr I.stop → Sat ip D P c r
  | .untl _ l I r, t => ∃ u, t + bound P I.beginStr I.begin ≤ u ∧
      u ≤ t + bound P I.stopStr I.stop ∧ Sat ip D P r u ∧
      ∀ w, t ≤ w → w ≤ u → Sat ip D P l w
  | _, _ => False

/-- All atoms compare a signal or constant with a signal or constant. -/
def PlainAtoms : Tr → Prop
  | .atom _ _ l r => IsLeaf l ∧ IsLeaf r
  | .not _ c | .ev _ _ c | .alw _ _ c => PlainAtoms c
  | .and _ l r | .or _ l r | .implies _ l r | .untl _ l _ r => PlainAtoms l ∧ PlainAtoms r
  | _ => False

/-- All atoms compare affine expressions. -/
def AffineAtoms : Tr → Prop
  | .atom _ _ l r => IsAffine l ∧ IsAffine r
  | .not _ c | .ev _ _ c | .alw _ _ c => AffineAtoms c
  | .and _ l r | .or _ l r | .implies _ l r | .untl _ l _ r => AffineAtoms l ∧ AffineAtoms r
  | _ => False

/-- An expression evaluated on the values of one row. -/
def rowExpr (P : Assoc ℚ) (row : List ℚ) : Tr → ℚ
  | .sig _ v m _ => row.getD ((m.lookup v).getD 0) 0
  | .const _ p v _ => number P p v
  | .abs _ c => |rowExpr P row c|
  | .plus _ l r => rowExpr P row l + rowExpr P row r
  | .minus _ l r => rowExpr P row l - rowExpr P row r
  | .mult _ l r => rowExpr P row l * rowExpr P row r
  | _ => 0

/-- The sampled robustness of every atom differs by at most `d` in corresponding rows. -/
def SampledNear (d : ℚ) (D D' : List (List ℚ)) (P : Assoc ℚ) : Tr → Prop
  | .atom _ k l r => ∀ row ∈ D.zip D',
    |margin k (rowExpr P row.1 l) (rowExpr P row.1 r) -
      margin k (rowExpr P row.2 l) (rowExpr P row.2 r)| ≤ d
  | .not _ c | .ev _ _ c | .alw _ _ c => SampledNear d D D' P c
  | .and _ l r | .or _ l r | .implies _ l r | .untl _ l _ r =>
    SampledNear d D D' P l ∧ SampledNear d D D' P r
  | _ => True

/-- The rows agree up to and including one at or after time `K`. -/
def SameUntil (K : ℚ) (D D' : List (List ℚ)) : Prop :=
  ∃ P r S S', D = P ++ r :: S ∧ D' = P ++ r :: S' ∧ ∃ u, r.head? = some u ∧ K ≤ u

/-- A monitor of the until-free formula `T` in SPACE mode whose rows, each with `n` values,
cover the horizon of `T` on `[s, e]`, with all atoms within `±B` there.  No parameter has the
empty name (known defect C57). -/
structure Ready (ip : Interpol) (n : ℕ) (B : ℚ) (m : Monitor) (T : Tr) (s e : ℚ) : Prop where
  formula : m.formula = some T
  sem : m.sem = .SPACE
  interpol : m.ip = ip
  names : m.params.lookup "" = none
  rows : WellShaped n m.data
  shape : IsFormula n m.params T
  within : AtomsWithin ip B m.data m.params s e T
  start : 0 ≤ s
  stop : s ≤ e
  covers : Covers m.data s (e + reach m.params T)

end Spec
end STLRom
