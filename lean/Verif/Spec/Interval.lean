import Verif.Spec.Stl

/-!
# Bounds on the robustness of a formula on an incomplete trace

The interval semantics of the logic for a trace whose rows end at time `d`: what is known about
the robustness on every completion of the trace with values within `±B`.  `p = true` stands for
the lower bound, `p = false` for the upper bound.  A formula is evaluated on `[s, e]`, its
operands on the correspondingly shifted intervals.
-/

namespace STLRom
namespace Spec

/-- The time of the last row. -/
def lastTime (D : List (List ℚ)) : ℚ := ((D.getLast?.bind List.head?).getD 0)

/-- Up to which time the bound is known; a bound that is known nowhere counts as known at `s`
only. -/
def known (d : ℚ) (P : Assoc ℚ) : Bool → ℚ → ℚ → Tr → ℚ
  | p, s, e, .not _ c => known d P (!p) s e c
  | p, s, e, .and _ l r | p, s, e, .or _ l r => min (known d P p s e l) (known d P p s e r)
  | p, s, e, .implies _ l r => min (known d P (!p) s e l) (known d P p s e r)
  | p, s, e, .ev _ I c =>
    let a := bound P I.beginStr I.begin
    let b := bound P I.stopStr I.stop
    let k := known d P p (s + a) (e + b) c
    if p then min e (k - a) else max s (min e (k - b))
  | p, s, e, .alw _ I c =>
    let a := bound P I.beginStr I.begin
    let b := bound P I.stopStr I.stop
    let k := known d P p (s + a) (e + b) c
    if p then max s (min e (k - b)) else min e (k - a)
  | _, s, e, _ => max s (min e d)

/-- The bound.  The lower bound of `ev` uses the part of the window that is known, the upper
bound needs the whole window; for `alw` it is the other way round. -/
noncomputable def robBound (ip : Interpol) (B : ℚ) (D : List (List ℚ)) (P : Assoc ℚ) :
    Bool → ℚ → ℚ → Tr → ℚ → EReal
  | p, s, _, .atom st k l r, t =>
    if lastTime D < s then er (if p then -B else B) else rob ip D P (.atom st k l r) t
  | p, s, e, .not _ c, t => -robBound ip B D P (!p) s e c t
  | p, s, e, .and _ l r, t => robBound ip B D P p s e l t ⊓ robBound ip B D P p s e r t
  | p, s, e, .or _ l r, t => robBound ip B D P p s e l t ⊔ robBound ip B D P p s e r t
  | p, s, e, .implies _ l r, t => -robBound ip B D P (!p) s e l t ⊔ robBound ip B D P p s e r t
  | p, s, e, .ev _ I c, t =>
    let a := bound P I.beginStr I.begin
    let b := bound P I.stopStr I.stop
    let k := known (lastTime D) P p (s + a) (e + b) c
    if p = false ∧ k < s + b then er B
    else ⨆ r ∈ Set.Icc (t + a) (min (t + b) k), robBound ip B D P p (s + a) (e + b) c r
  | p, s, e, .alw _ I c, t =>
    let a := bound P I.beginStr I.begin
    let b := bound P I.stopStr I.stop
    let k := known (lastTime D) P p (s + a) (e + b) c
    if p = true ∧ k < s + b then er (-B)
    else ⨅ r ∈ Set.Icc (t + a) (min (t + b) k), robBound ip B D P p (s + a) (e + b) c r
  | _, _, _, _, _ => 0

/-- Every atom whose upper bound is used has been reached by the rows.  (Known defect C26: the
upper bound of an atom that has not been reached is `-B`.) -/
def Started (d : ℚ) (P : Assoc ℚ) : Bool → ℚ → Tr → Prop
  | p, s, .not _ c => Started d P (!p) s c
  | p, s, .and _ l r | p, s, .or _ l r => Started d P p s l ∧ Started d P p s r
  | p, s, .implies _ l r => Started d P (!p) s l ∧ Started d P p s r
  | p, s, .ev _ I c | p, s, .alw _ I c => Started d P p (s + bound P I.beginStr I.begin) c
  | p, s, _ => p = true ∨ s ≤ d

/-- No operand of a temporal operator stops being known within `1e-14` before the end of the
first window.  (`Signal::resize` treats such times as equal.) -/
def OffEdge (d : ℚ) (P : Assoc ℚ) : Bool → ℚ → ℚ → Tr → Prop
  | p, s, e, .not _ c => OffEdge d P (!p) s e c
  | p, s, e, .and _ l r | p, s, e, .or _ l r => OffEdge d P p s e l ∧ OffEdge d P p s e r
  | p, s, e, .implies _ l r => OffEdge d P (!p) s e l ∧ OffEdge d P p s e r
  | p, s, e, .ev _ I c | p, s, e, .alw _ I c =>
    let a := bound P I.beginStr I.begin
    let b := bound P I.stopStr I.stop
    OffEdge d P p (s + a) (e + b) c ∧
      (known d P p (s + a) (e + b) c < s + b → known d P p (s + a) (e + b) c < s + b - 1 / 10 ^ 14)
  | _, _, _, _ => True

/-- No atom directly under an `ev` has its signal shortened by the evaluation (known defect, see
C28).  On a covering trace this is `Untrimmed`. -/
def Uncut (d : ℚ) (P : Assoc ℚ) : ℚ → ℚ → Tr → Prop
  | s, e, .not _ c => Uncut d P s e c
  | s, e, .and _ l r | s, e, .or _ l r | s, e, .implies _ l r => Uncut d P s e l ∧ Uncut d P s e r
  | s, e, .ev _ I c =>
    let a := bound P I.beginStr I.begin
    let b := bound P I.stopStr I.stop
    Uncut d P (s + a) (e + b) c ∧ (IsAtom c → min (d - a) e - b ≤ s + a)
  | s, e, .alw _ I c => Uncut d P (s + bound P I.beginStr I.begin) (e + bound P I.stopStr I.stop) c
  | _, _, _ => True

/-- As `NoLongSlope`, for the bounds of the operands: no bound of an operand of a temporal
operator runs as one sloped straight line, without a sample, from before the end of the first
window to the last time it is known (defects C09, C12).  At a single time `s = e` it says nothing about the
outermost temporal operators. -/
def NoLongBound (B : ℚ) (D : List (List ℚ)) (P : Assoc ℚ) : Bool → ℚ → ℚ → Tr → Prop
  | p, s, e, .not _ c => NoLongBound B D P (!p) s e c
  | p, s, e, .and _ l r | p, s, e, .or _ l r => NoLongBound B D P p s e l ∧ NoLongBound B D P p s e r
  | p, s, e, .implies _ l r => NoLongBound B D P (!p) s e l ∧ NoLongBound B D P p s e r
  | p, s, e, .ev _ I c =>
    let a := bound P I.beginStr I.begin
    let b := bound P I.stopStr I.stop
    let k := known (lastTime D) P p (s + a) (e + b) c
    NoLongBound B D P p (s + a) (e + b) c ∧
      (s + b < k → a < b → Marked D (s + b) k c ∨
        Bends (robBound .LINEAR B D P p (s + a) (e + b) c) (s + a) (s + b) k) ∧
      (IsAtom c → a < b → Marked D (min (lastTime D - a) e - a) k c ∨
        Bends (robBound .LINEAR B D P p (s + a) (e + b) c) (s + a) (min (lastTime D - a) e - a) k)
  | p, s, e, .alw _ I c =>
    let a := bound P I.beginStr I.begin
    let b := bound P I.stopStr I.stop
    let k := known (lastTime D) P p (s + a) (e + b) c
    NoLongBound B D P p (s + a) (e + b) c ∧
      (s + b < k → a < b → Marked D (s + b) k c ∨
        Bends (robBound .LINEAR B D P p (s + a) (e + b) c) (s + a) (s + b) k)
  | _, _, _, _ => True

/-- As `AtomsOk`, on a trace that may be incomplete: the atoms compare plain signals or
constants, or affine expressions whose evaluation interval ends at a row or after the last
one (C53). -/
def AtomsOkTo (D : List (List ℚ)) (P : Assoc ℚ) : ℚ → ℚ → Tr → Prop
  | s, e, .atom _ _ l r =>
    IsLeaf l ∧ IsLeaf r ∨ IsAffine l ∧ IsAffine r ∧ (s = e ∨ RowAt D e ∨ lastTime D ≤ e)
  | s, e, .not _ c => AtomsOkTo D P s e c
  | s, e, .and _ l r | s, e, .or _ l r | s, e, .implies _ l r =>
    AtomsOkTo D P s e l ∧ AtomsOkTo D P s e r
  | s, e, .ev _ I c | s, e, .alw _ I c =>
    AtomsOkTo D P (s + bound P I.beginStr I.begin) (e + bound P I.stopStr I.stop) c
  | _, _, _ => True

/-- Every atom stays within `±B` on the part of its evaluation interval that the rows reach. -/
def AtomsWithinTo (ip : Interpol) (B : ℚ) (D : List (List ℚ)) (P : Assoc ℚ) : ℚ → ℚ → Tr → Prop
  | s, e, .atom _ k l r => ∀ t, s ≤ t → t ≤ e → t ≤ lastTime D →
    -B ≤ margin k (expr ip D P l t) (expr ip D P r t) ∧
      margin k (expr ip D P l t) (expr ip D P r t) ≤ B
  | s, e, .not _ c => AtomsWithinTo ip B D P s e c
  | s, e, .and _ l r | s, e, .or _ l r | s, e, .implies _ l r =>
    AtomsWithinTo ip B D P s e l ∧ AtomsWithinTo ip B D P s e r
  | s, e, .ev _ I c | s, e, .alw _ I c =>
    AtomsWithinTo ip B D P (s + bound P I.beginStr I.begin) (e + bound P I.stopStr I.stop) c
  | _, _, _ => True

/-- As `StepOk`, on a trace that may be incomplete: the atoms compare plain signals or constants,
or expressions whose evaluation interval ends at a row or after the last one (C53). -/
def AtomsStepTo (D : List (List ℚ)) (P : Assoc ℚ) : ℚ → ℚ → Tr → Prop
  | s, e, .atom _ _ l r => IsLeaf l ∧ IsLeaf r ∨ s = e ∨ RowAt D e ∨ lastTime D ≤ e
  | s, e, .not _ c => AtomsStepTo D P s e c
  | s, e, .and _ l r | s, e, .or _ l r | s, e, .implies _ l r =>
    AtomsStepTo D P s e l ∧ AtomsStepTo D P s e r
  | s, e, .ev _ I c | s, e, .alw _ I c =>
    AtomsStepTo D P (s + bound P I.beginStr I.begin) (e + bound P I.stopStr I.stop) c
  | _, _, _ => True

/-- For step functions: where an operator needs the bound of an operand up to the last time it is
known, that bound does not jump exactly there (the closing value is lost, C25 and C26 with
PREVIOUS interpolation).  At a single time `s = e` this says nothing about the outermost Boolean
and temporal operators. -/
def StepBound (B : ℚ) (D : List (List ℚ)) (P : Assoc ℚ) : Bool → ℚ → ℚ → Tr → Prop
  | p, s, e, .not _ c => StepBound B D P (!p) s e c
  | p, s, e, .and _ l r | p, s, e, .or _ l r =>
    let k := min (known (lastTime D) P p s e l) (known (lastTime D) P p s e r)
    StepBound B D P p s e l ∧ StepBound B D P p s e r ∧
      Settles (robBound .PREVIOUS B D P p s e l) s k ∧ Settles (robBound .PREVIOUS B D P p s e r) s k
  | p, s, e, .implies _ l r =>
    let k := min (known (lastTime D) P (!p) s e l) (known (lastTime D) P p s e r)
    StepBound B D P (!p) s e l ∧ StepBound B D P p s e r ∧
      Settles (robBound .PREVIOUS B D P (!p) s e l) s k ∧ Settles (robBound .PREVIOUS B D P p s e r) s k
  | p, s, e, .ev _ I c =>
    let a := bound P I.beginStr I.begin
    let b := bound P I.stopStr I.stop
    let k := known (lastTime D) P p (s + a) (e + b) c
    StepBound B D P p (s + a) (e + b) c ∧
      (p = true → a < b → k ≤ e + a → (¬ IsAtom c ∧ s + b < k ∨ IsAtom c ∧ 0 < a) →
        Settles (robBound .PREVIOUS B D P p (s + a) (e + b) c) (s + a) k)
  | p, s, e, .alw _ I c =>
    let a := bound P I.beginStr I.begin
    let b := bound P I.stopStr I.stop
    let k := known (lastTime D) P p (s + a) (e + b) c
    StepBound B D P p (s + a) (e + b) c ∧
      (p = false → a < b → k ≤ e + a → s + b < k →
        Settles (robBound .PREVIOUS B D P p (s + a) (e + b) c) (s + a) k)
  | _, _, _, _ => True

/-- Boolean combinations of comparisons and of temporal operators whose operand is a comparison or
a negated one (`Shallow false`); with `true`, comparisons and negated ones only. -/
def Shallow : Bool → Tr → Prop
  | _, .atom _ _ _ _ => True
  | i, .not _ c => Shallow i c
  | i, .and _ l r | i, .or _ l r | i, .implies _ l r => i = false ∧ Shallow i l ∧ Shallow i r
  | i, .ev _ _ c | i, .alw _ _ c => i = false ∧ Shallow true c
  | _, _ => False

/-- A monitor of the until-free formula `T` in SPACE mode with interpolation `ip` whose rows,
each with `n` values, begin at or before `s` and end anywhere, with all atoms within `±B` as far
as the rows go. -/
structure Begun (ip : Interpol) (n : ℕ) (B : ℚ) (m : Monitor) (T : Tr) (s e : ℚ) : Prop where
  formula : m.formula = some T
  sem : m.sem = .SPACE
  interpol : m.ip = ip
  names : m.params.lookup "" = none
  rows : WellShaped n m.data
  shape : IsFormula n m.params T
  big : 0 ≤ B
  within : AtomsWithinTo ip B m.data m.params s e T
  start : 0 ≤ s
  stop : s ≤ e
  first : ∃ row t, m.data.head? = some row ∧ row.head? = some t ∧ t ≤ s

/-- What the bound `p` of `T` on `[s, e]` needs to be computed right. -/
structure Sound (B : ℚ) (D : List (List ℚ)) (P : Assoc ℚ) (p : Bool) (s e : ℚ) (T : Tr) : Prop where
  started : Started (lastTime D) P p s T
  offEdge : OffEdge (lastTime D) P p s e T
  uncut : Uncut (lastTime D) P s e T
  noLong : NoLongBound B D P p s e T

/-- What the bound `p` of `T` on `[s, e]` needs to be computed right with PREVIOUS
interpolation. -/
structure StepSound (B : ℚ) (D : List (List ℚ)) (P : Assoc ℚ) (p : Bool) (s e : ℚ) (T : Tr) : Prop where
  started : Started (lastTime D) P p s T
  offEdge : OffEdge (lastTime D) P p s e T
  uncut : Uncut (lastTime D) P s e T
  steps : StepBound B D P p s e T

/-- A monitor of `l until_[a,b] r` over two comparisons in SPACE mode with LINEAR interpolation,
evaluated at time `t`.  Its rows begin at or before `t` and go beyond `t + a`; they may end before
`t + b`, but then also before `b` (known defect, see C17).  Both comparisons stay within `±B` as
far as the rows go. -/
structure BegunUntil (n : ℕ) (B : ℚ) (m : Monitor) (st : St) (l : Tr) (I : Ival) (r : Tr)
    (a b t : ℚ) : Prop where
  formula : m.formula = some (.untl st l I r)
  sem : m.sem = .SPACE
  interpol : m.ip = .LINEAR
  names : m.params.lookup "" = none
  rows : WellShaped n m.data
  opens : bound m.params I.beginStr I.begin = a
  closes : bound m.params I.stopStr I.stop = b
  window : 0 ≤ a ∧ a < b
  atoms : IsAtom l ∧ IsAtom r
  shape : IsFormula n m.params l ∧ IsFormula n m.params r
  okLeft : AtomsOkTo m.data m.params t (t + b) l
  okRight : AtomsOkTo m.data m.params (t + a) (t + b) r
  big : 0 ≤ B
  withinLeft : AtomsWithinTo .LINEAR B m.data m.params t (t + b) l
  withinRight : AtomsWithinTo .LINEAR B m.data m.params (t + a) (t + b) r
  start : 0 ≤ t
  first : ∃ row t', m.data.head? = some row ∧ row.head? = some t' ∧ t' ≤ t
  reached : t + a < lastTime m.data
  timely : b ≤ lastTime m.data → t + b ≤ lastTime m.data

end Spec
end STLRom
