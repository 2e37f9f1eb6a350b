import Verif.Proofs.Leaf
import Verif.Proofs.Calls

/-!
# Signal expressions and atoms
-/

namespace STLRom
open Signal Spec

/-- What the proofs below assume of the environment of a LINEAR evaluation. -/
structure Lin (env : Env) (n : ℕ) : Prop where
  ip : env.ip = .LINEAR
  shape : WellShaped n env.data
  noname : env.params.lookup "" = none

theorem rowTime_of_head {row : List ℚ} {t : ℚ} (h : row.head? = some t) : rowTime row = t := by
  cases row with
  | nil => simp at h
  | cons a l => simpa [rowTime] using h

theorem head_of_len {row : List ℚ} {n : ℕ} (h : row.length = n + 1) : row.head? = some (rowTime row) := by
  cases row with
  | nil => simp at h
  | cons a l => rfl

theorem Spec.WellShaped.inc {n : ℕ} {D : List (List ℚ)} (h : WellShaped n D) :
    (D.map rowTime).Pairwise (· < ·) := by
  refine List.pairwise_map.2 (h.2.imp_of_mem ?_)
  intro r s hr hs hrs
  exact hrs _ _ (head_of_len (h.1 r hr)) (head_of_len (h.1 s hs))

theorem Spec.WellShaped.incf {n : ℕ} {D : List (List ℚ)} (h : WellShaped n D) (g : List ℚ → ℚ) :
    Inc (colf g D) := List.pairwise_map.2 (List.pairwise_map.1 h.inc)

theorem Spec.Covers.facts {D : List (List ℚ)} {S E : ℚ} (h : Covers D S E) :
    D ≠ [] ∧ (∀ row, D.head? = some row → rowTime row ≤ S) ∧
      ∀ row, D.getLast? = some row → E ≤ rowTime row := by
  obtain ⟨⟨r, t, h1, h2, h3⟩, ⟨r', t', h4, h5, h6⟩⟩ := h
  refine ⟨by rintro rfl; simp at h1, fun row hr => ?_, fun row hr => ?_⟩
  · rw [h1] at hr
    obtain rfl := Option.some.inj hr
    rw [rowTime_of_head h2]; exact h3
  · rw [h4] at hr
    obtain rfl := Option.some.inj hr
    rw [rowTime_of_head h5]; exact h6

/-- A node state right after `reset` and `set_horizon`. -/
def FreshSt (S E : ℚ) (s : St) : Prop :=
  s.start = S ∧ s.stop = E ∧ s.z = .empty ∧ s.zlow = .empty ∧ s.zup = .empty

/-- A tree prepared for evaluation on `[S, E]`. -/
def Fresh (P : Assoc ℚ) : ℚ → ℚ → Tr → Prop
  | S, E, .sig s _ _ td | S, E, .const s _ _ td => FreshSt S E s ∧ td = some 0
  | S, E, .abs s c | S, E, .not s c => FreshSt S E s ∧ Fresh P S E c
  | S, E, .plus s l r | S, E, .minus s l r | S, E, .mult s l r | S, E, .atom s _ l r
  | S, E, .and s l r | S, E, .or s l r | S, E, .implies s l r =>
    FreshSt S E s ∧ Fresh P S E l ∧ Fresh P S E r
  | S, E, .ev s I c | S, E, .alw s I c => FreshSt S E s ∧
    Fresh P (S + bound P I.beginStr I.begin) (E + bound P I.stopStr I.stop) c
  | S, E, .untl s l I r => FreshSt S E s ∧ Fresh P S (E + bound P I.stopStr I.stop) l ∧
    Fresh P (S + bound P I.beginStr I.begin) (E + bound P I.stopStr I.stop) r

theorem ivA_eq (P : Assoc ℚ) (I : Ival) : Tr.ivA P I = bound P I.beginStr I.begin := by
  unfold Tr.ivA Tr.resolve bound
  cases P.lookup I.beginStr <;> rfl

theorem ivB_eq (P : Assoc ℚ) (I : Ival) : Tr.ivB P I = bound P I.stopStr I.stop := by
  unfold Tr.ivB Tr.resolve bound
  cases P.lookup I.stopStr <;> rfl

theorem fresh_prepare (P : Assoc ℚ) (T : Tr) : ∀ S E, Fresh P S E (Monitor.prepare P S E T) := by
  unfold Monitor.prepare
  induction T with
  | sig | const => intro S E; simp [Tr.setTraceData, Tr.setParamMap, Tr.reset, Tr.setHorizon, Fresh, FreshSt, Tr.resetSt]
  | abs _ c ih | not _ c ih =>
    intro S E
    simp only [Tr.setTraceData, Tr.setParamMap, Tr.reset, Tr.setHorizon, Fresh, FreshSt, Tr.resetSt, true_and, and_self]
    exact ih S E
  | plus _ l r ih1 ih2 | minus _ l r ih1 ih2 | mult _ l r ih1 ih2 | atom _ _ l r ih1 ih2
  | and _ l r ih1 ih2 | or _ l r ih1 ih2 | implies _ l r ih1 ih2 =>
    intro S E
    simp only [Tr.setTraceData, Tr.setParamMap, Tr.reset, Tr.setHorizon, Fresh, FreshSt, Tr.resetSt, true_and, and_self]
    exact ⟨ih1 S E, ih2 S E⟩
  | ev _ I c ih | alw _ I c ih =>
    intro S E
    simp only [Tr.setTraceData, Tr.setParamMap, Tr.reset, Tr.setHorizon, Fresh, FreshSt, Tr.resetSt, true_and, and_self]
    rw [ivA_eq, ivB_eq]
    exact ih _ _
  | untl _ l I r ih1 ih2 =>
    intro S E
    simp only [Tr.setTraceData, Tr.setParamMap, Tr.reset, Tr.setHorizon, Fresh, FreshSt, Tr.resetSt, true_and, and_self]
    rw [ivA_eq, ivB_eq]
    exact ⟨ih1 _ _, ih2 _ _⟩

/-! ## Expressions -/

/-- A node of an expression after a run. -/
def StOk (D : List (List ℚ)) (S E : ℚ) (s : St) : Prop :=
  s.start = S ∧ s.stop = E ∧ s.z.beginTime = S ∧ s.z.endTime = E ∧ times s.z.samples = grid D S E

/-- The read position of a leaf is past the stop time. -/
def TdOk (D : List (List ℚ)) (E : ℚ) (td : Option ℕ) : Prop :=
  ∃ k, td = some k ∧ ∀ row ∈ D.drop k, E < rowTime row

/-- An expression after a run. -/
def EAfter (D : List (List ℚ)) (S E : ℚ) : Tr → Prop
  | .sig s _ _ td | .const s _ _ td => StOk D S E s ∧ TdOk D E td
  | .abs s c => StOk D S E s ∧ EAfter D S E c
  | .plus s l r | .minus s l r | .mult s l r => StOk D S E s ∧ EAfter D S E l ∧ EAfter D S E r
  | _ => False

theorem EAfter.st {D : List (List ℚ)} {S E : ℚ} {T : Tr} (h : EAfter D S E T) : StOk D S E T.st := by
  cases T <;> first | exact h.1 | exact h.elim

theorem front_ok {z : Signal} (h : z.samples ≠ []) : ∃ p, z.front = .ok p := by
  unfold Signal.front
  cases hz : z.samples with
  | nil => exact absurd hz h
  | cons p l => exact ⟨p, rfl⟩

theorem StOk.ne {D : List (List ℚ)} {S E : ℚ} {s : St} (h : StOk D S E s) : s.z.samples ≠ [] := by
  intro h'
  have := h.2.2.2.2
  rw [h'] at this
  simp [grid] at this

theorem constValue_eq (P : Assoc ℚ) (p : String) (v : ℚ) : Tr.constValue P p v = number P p v := rfl

theorem number_idem (P : Assoc ℚ) (p : String) (v : ℚ) : number P p (number P p v) = number P p v := by
  unfold number
  split_ifs <;> rfl

section
variable {env : Env} {n : ℕ} {S E : ℚ}

theorem sig_first (hL : Lin env n) (hc : Covers env.data S E) (hE : 0 ≤ E) (hSE : S ≤ E) {s : St}
    {v : String} {m : Assoc ℕ} {td : Option ℕ} (hf : FreshSt S E s ∧ td = some 0)
    (he : IsExpr n (.sig s v m td)) :
    ∃ T' r, Tr.computeRob env (.sig s v m td) = .ok (T', r) ∧ EAfter env.data S E T' ∧
      Pieces (expr .LINEAR env.data env.params (.sig s v m td)) E T'.st.z.samples := by
  obtain ⟨⟨f1, f2, f3, _, _⟩, rfl⟩ := hf
  obtain ⟨i, hi, hi0, hin⟩ := he
  obtain ⟨hne, hh, hl⟩ := hc.facts
  obtain ⟨z0, k, t, w, a1, a7, a8⟩ := Tr.leaf_first (td := 0)
    (hL.shape.incf fun r => r.getD i 0) hh hE hSE hne hl
  obtain ⟨z, a2, a3, a4, a5, a6⟩ := a8 w
  obtain ⟨p, hp⟩ := front_ok (z := z) (by intro h; rw [h] at a5; simp [grid] at a5)
  obtain ⟨j, rfl⟩ : ∃ j, i = j + 1 := ⟨i - 1, by omega⟩
  refine ⟨.sig { s with z := z } v m (some (0 + k)), p.value, ?_, ⟨⟨f1, f2, a3, a4, a5⟩, _, rfl, ?_⟩, ?_⟩
  · have hcond : ¬ (env.data = [] ∧ 0 ≤ E) := fun h => hne h.1
    simp only [Tr.computeRob, Tr.sigRob, hi, Option.getD_some, if_neg hcond, List.drop_zero, hL.ip,
      f1, f2, f3]
    rw [Tr.sigRead_eq _ _ n _ hin _ _ _ _ _ hL.shape.1, a1]
    simp only [bind, Except.bind, a2, hp]
  · simpa using a7
  · simpa [expr, trace, column, hi, Tr.st, colf, rowTime] using a6

theorem sig_again (hL : Lin env n) (hne : env.data ≠ []) (hE : 0 ≤ E) (hSE : S ≤ E) {s : St}
    {v : String} {m : Assoc ℕ} {td : Option ℕ} (ha : EAfter env.data S E (.sig s v m td))
    (he : IsExpr n (.sig s v m td)) :
    ∃ T' r, Tr.computeRob env (.sig s v m td) = .ok (T', r) ∧ EAfter env.data S E T' := by
  obtain ⟨⟨f1, f2, f3, f4, f5⟩, k0, rfl, f6⟩ := ha
  obtain ⟨i, hi, hi0, hin⟩ := he
  obtain ⟨z0, k, t, w, a1, a2, a3⟩ := Tr.leaf_again (g := fun r => r.getD i 0) hL.shape.inc hE hSE
    f3 f4 f5 f6
  obtain ⟨z, b1, b2, b3, b4⟩ := a2 w
  obtain ⟨p, hp⟩ := front_ok (z := z) (by intro h; rw [h] at b4; simp [grid] at b4)
  obtain ⟨j, rfl⟩ : ∃ j, i = j + 1 := ⟨i - 1, by omega⟩
  refine ⟨.sig { s with z := z } v m (some (k0 + k)), p.value, ?_, ⟨⟨f1, f2, b2, b3, b4⟩, _, rfl, a3⟩⟩
  have hcond : ¬ (env.data = [] ∧ 0 ≤ E) := fun h => hne h.1
  simp only [Tr.computeRob, Tr.sigRob, hi, Option.getD_some, if_neg hcond, hL.ip, f1, f2]
  rw [Tr.sigRead_eq _ _ n _ hin _ _ _ _ _ fun r hr => hL.shape.1 r (List.mem_of_mem_drop hr), a1]
  simp only [bind, Except.bind, b1, hp]

theorem interp_const (c : ℚ) : ∀ {D : List (List ℚ)} {t : ℚ}, D ≠ [] →
    (∀ row, D.head? = some row → rowTime row ≤ t) → Inc (colf (fun _ => c) D) →
    interp .LINEAR (colf (fun _ => c) D) t = some c
  | [], _, h, _, _ => absurd rfl h
  | [a], t, _, h, _ => by
    have := h a (by simp)
    simp [colf, interp, this]
  | a :: b :: l, t, _, h, hi => by
    have h1 := h a (by simp)
    have hi' := List.pairwise_cons.1 hi
    simp only [colf, List.map_cons, interp, if_neg (not_lt.2 h1)]
    split_ifs with h2
    · simp
    · exact interp_const c (D := b :: l) (by simp) (by simpa using h2) hi'.2

theorem pieces_congr {f g : ℚ → ℚ} : ∀ {l : List Sample}, Pieces f E l →
    (∀ x, (∃ p ∈ l, p.time ≤ x) → x ≤ E → f x = g x) → Pieces g E l
  | [], _, _ => trivial
  | [p], h, e => ⟨h.1, fun x a b => by rw [← e x ⟨p, by simp, a⟩ b]; exact h.2 x a b⟩
  | p :: q :: r, h, e => by
    have hq := h.2.2.le_end q (by simp)
    refine ⟨h.1, fun x a b => ?_, pieces_congr h.2.2 fun x ⟨y, hy, hx⟩ hE =>
      e x ⟨y, by simp [hy], hx⟩ hE⟩
    rw [← e x ⟨p, by simp, a⟩ (b.trans hq)]; exact h.2.1 x a b

theorem times_from {D : List (List ℚ)} (hSE : S ≤ E) {l : List Sample} (h : times l = grid D S E) :
    ∀ p ∈ l, S ≤ p.time ∧ p.time ≤ E := by
  intro p hp
  have : p.time ∈ grid D S E := by rw [← h]; exact List.mem_map.2 ⟨p, hp, rfl⟩
  refine ⟨?_, Tr.grid_le hSE _ this⟩
  rcases List.mem_cons.1 this with h | h
  · exact h.ge
  · simp only [List.mem_filter, decide_eq_true_eq] at h
    exact h.2.1.le

theorem const_first (hL : Lin env n) (hc : Covers env.data S E) (hE : 0 ≤ E) (hSE : S ≤ E) {s : St}
    {p : String} {v : ℚ} {td : Option ℕ} (hf : FreshSt S E s ∧ td = some 0) :
    ∃ T' r, Tr.computeRob env (.const s p v td) = .ok (T', r) ∧ EAfter env.data S E T' ∧
      Pieces (expr .LINEAR env.data env.params (.const s p v td)) E T'.st.z.samples := by
  obtain ⟨⟨f1, f2, f3, _, _⟩, rfl⟩ := hf
  obtain ⟨hne, hh, hl⟩ := hc.facts
  have hinc := hL.shape.incf fun _ => number env.params p v
  obtain ⟨z0, k, t, w, a1, a7, a8⟩ := Tr.leaf_first (td := 0) hinc hh hE hSE hne hl
  obtain ⟨z, a2, a3, a4, a5, a6⟩ := a8 (number env.params p v)
  refine ⟨.const { s with z := z } p (number env.params p v) (some (0 + k)), number env.params p v,
    ?_, ⟨⟨f1, f2, a3, a4, a5⟩, _, rfl, by simpa using a7⟩, ?_⟩
  · have hcond : ¬ (env.data = [] ∧ 0 ≤ E) := fun h => hne h.1
    simp only [Tr.computeRob, Tr.constRob, constValue_eq, if_neg hcond, List.drop_zero, hL.ip,
      f1, f2, f3]
    rw [Tr.constRead_eq _ n _ _ _ _ _ _ 0 hL.shape.1, a1]
    simp only [bind, Except.bind, Except.map, a2]
  · refine pieces_congr a6 fun x ⟨q, hq, hx⟩ _ => ?_
    have := (times_from hSE a5 q hq).1
    simp only [expr]
    rw [interp_const _ hne (fun row hr => (hh row hr).trans (this.trans hx)) hinc]
    rfl

theorem const_again (hL : Lin env n) (hne : env.data ≠ []) (hE : 0 ≤ E) (hSE : S ≤ E) {s : St}
    {p : String} {v : ℚ} {td : Option ℕ} (ha : EAfter env.data S E (.const s p v td)) :
    ∃ T' r, Tr.computeRob env (.const s p v td) = .ok (T', r) ∧ EAfter env.data S E T' := by
  obtain ⟨⟨f1, f2, f3, f4, f5⟩, k0, rfl, f6⟩ := ha
  obtain ⟨z0, k, t, w, a1, a2, a3⟩ := Tr.leaf_again (g := fun _ => number env.params p v)
    hL.shape.inc hE hSE f3 f4 f5 f6
  obtain ⟨z, b1, b2, b3, b4⟩ := a2 (number env.params p v)
  refine ⟨.const { s with z := z } p (number env.params p v) (some (k0 + k)), number env.params p v,
    ?_, ⟨⟨f1, f2, b2, b3, b4⟩, _, rfl, a3⟩⟩
  have hcond : ¬ (env.data = [] ∧ 0 ≤ E) := fun h => hne h.1
  simp only [Tr.computeRob, Tr.constRob, constValue_eq, if_neg hcond, hL.ip, f1, f2]
  rw [Tr.constRead_eq _ n _ _ _ _ _ _ 0 fun r hr => hL.shape.1 r (List.mem_of_mem_drop hr), a1]
  simp only [bind, Except.bind, Except.map, b1]

theorem grid_last {D : List (List ℚ)} (hD : (D.map rowTime).Pairwise (· < ·)) (hSE : S ≤ E)
    (h : S = E ∨ RowAt D E) : (grid D S E).getLast? = some E := by
  rcases hSE.lt_or_eq with hlt | heq
  · have hmem : E ∈ grid D S E := by
      rcases h with h | ⟨row, hr, hh⟩
      · exact absurd h hlt.ne
      · refine List.mem_cons_of_mem _ (List.mem_filter.2 ⟨List.mem_map.2 ⟨row, hr, rowTime_of_head hh⟩, ?_⟩)
        simpa using hlt
    obtain ⟨b, hb⟩ : ∃ b, (grid D S E).getLast? = some b :=
      ⟨_, List.getLast?_eq_some_getLast (by simp [grid])⟩
    have hinc := Tr.grid_inc hD S E
    obtain ⟨l', hl'⟩ := getLast?_eq_some_append hb
    rw [hb]
    rw [hl'] at hmem hinc
    have hbE := Tr.grid_le hSE b (List.mem_of_getLast? hb)
    rcases List.mem_append.1 hmem with h1 | h1
    · have := (List.pairwise_append.1 hinc).2.2 E h1 b (by simp)
      exact absurd this (not_lt.2 hbE)
    · simpa using (List.mem_singleton.1 h1).symm
  · subst heq
    have : (D.map rowTime).filter (fun t => decide (S < t ∧ t ≤ S)) = [] := by
      rw [List.filter_eq_nil_iff]
      intro a _
      simp only [decide_eq_true_eq, not_and, not_le]
      exact id
    rw [grid, this]
    rfl

/-- What the expression operators append: the combined values with derivative 0. -/
def opS (op : ℚ → ℚ → ℚ) (p q : Sample) : Sample := ⟨p.time, op p.value q.value, 0⟩

theorem opS_time (op : ℚ → ℚ → ℚ) (p q : Sample) : (opS op p q).time = p.time := rfl

theorem binLoop_eq (ip : Interpol) (op : ℚ → ℚ → ℚ) : ∀ (l r : List Sample) (z : Signal),
    times l = times r → Tr.binLoop ip op z l r =
      appendSamples ip z (comb (opS op) l r)
  | [], _, _, _ => by simp [Tr.binLoop, comb, appendSamples]
  | _ :: _, [], _, h => by simp at h
  | p :: l, q :: r, z, h => by
    simp only [times, List.map_cons, List.cons.injEq] at h
    simp only [Tr.binLoop, comb, List.zipWith_cons_cons, appendSamples]
    show (appendSample ip z p.time (op p.value q.value) 0 >>= _) = _
    congr 1
    funext z'
    exact binLoop_eq ip op l r z' h.2

theorem absLoop_eq (ip : Interpol) : ∀ (l : List Sample) (z : Signal),
    Tr.absLoop ip z l = appendSamples ip z (comb (opS fun a _ => |a|) l l)
  | [], _ => by simp [Tr.absLoop, comb, appendSamples]
  | p :: l, z => by
    simp only [Tr.absLoop, comb, List.zipWith_cons_cons, appendSamples]
    show (appendSample ip z p.time |p.value| 0 >>= _) = _
    congr 1
    funext z'
    exact absLoop_eq ip l z'

theorem comb_map_eq {g g' : Sample → Sample → Sample} (h : ∀ p q, (g p q).time = (g' p q).time)
    (h' : ∀ p q, (g p q).value = (g' p q).value) : ∀ l r : List Sample,
    (comb g l r).map (fun p => (p.time, p.value)) = (comb g' l r).map (fun p => (p.time, p.value))
  | [], _ => by simp [comb]
  | _ :: _, [] => by simp [comb]
  | p :: l, q :: r => by
    simp only [comb, List.zipWith_cons_cons, List.map_cons, h, h']
    congr 1
    exact comb_map_eq h h' l r

theorem relink_times : ∀ l : List Sample, times (relink l) = times l
  | [] => rfl
  | [p] => rfl
  | p :: q :: r => by
    have := relink_times (q :: r)
    simp only [times, relink, List.map_cons] at this ⊢
    rw [this]

/-- Appending the combined samples when the last one sits at the stop time. -/
theorem op_first {D : List (List ℚ)} {f1 f2 f : ℚ → ℚ} {g : Sample → Sample → Sample}
    {op : ℚ → ℚ → ℚ} {l r : List Sample}
    (hD : (D.map rowTime).Pairwise (· < ·)) (hSE : S ≤ E) (hlast : S = E ∨ RowAt D E)
    (hg : ∀ p q, (g p q).time = p.time) (hgv : ∀ p q, (g p q).value = op p.value q.value)
    (hv : ∀ p q x, p.time = q.time → f1 p.time = p.value → f2 p.time = q.value →
      f1 x = p.valueAt x → f2 x = q.valueAt x → p.time ≤ x → x ≤ E → f x = (g p q).valueAt x)
    (tl : times l = grid D S E) (tr : times r = grid D S E)
    (h1 : Pieces f1 E l) (h2 : Pieces f2 E r) :
    ∃ z, appendSamples .LINEAR Signal.empty
        (comb (opS op) l r) = .ok z ∧
      z.beginTime = S ∧ z.endTime = E ∧ times z.samples = grid D S E ∧ Pieces f E z.samples := by
  have htt : times l = times r := tl.trans tr.symm
  have tc : times (comb (opS op) l r) = grid D S E := by
    rw [comb_times (opS_time op) htt, tl]
  have hP := comb_pieces hg hv htt h1 h2
  have tg : times (comb g l r) = grid D S E := by rw [comb_times hg htt, tl]
  have hsinc : SInc (comb (opS op) l r) :=
    sinc_of_times (by rw [tc]; exact Tr.grid_inc hD S E)
  have hglast := grid_last hD hSE hlast
  refine ⟨_, appendSamples_empty hsinc, ?_⟩
  have hR := hP.rebuild (l' := comb (opS op) l r)
    (comb_map_eq (g := opS op) (g' := g) (fun p q => (hg p q).symm) (fun p q => (hgv p q).symm) l r) (by
      intro p hp
      have : (times (comb g l r)).getLast? = some p.time := by simp [times, List.getLast?_map, hp]
      rw [tg, hglast] at this
      exact (Option.some.inj this).symm)
  generalize comb (opS op) l r = c at tc hR
  match c, tc with
  | [], tc => simp [grid] at tc
  | p :: c, tc =>
    obtain ⟨q, hq⟩ : ∃ q, (p :: c).getLast? = some q := ⟨_, List.getLast?_eq_some_getLast (by simp)⟩
    have hqE : q.time = E := by
      have : (times (p :: c)).getLast? = some q.time := by simp only [times, List.getLast?_map, hq]; rfl
      rw [tc, hglast] at this
      exact (Option.some.inj this).symm
    rw [relinkSig_eq hq]
    refine ⟨?_, hqE, ?_, hR⟩
    · have := congrArg List.head? tc
      simpa [grid] using this
    · rw [relink_times, tc]

theorem op_again {D : List (List ℚ)} {s : St} (hs : StOk D S E s) (hSE : S ≤ E) {l : List Sample}
    (tl : times l = grid D S E) : appendSamples .LINEAR s.z l = .ok s.z := by
  refine appendSamples_skip _ hs.ne _ fun p hp => ?_
  rw [hs.2.2.2.1]
  exact (times_from hSE tl p hp).2

theorem const_expr {ip : Interpol} {D : List (List ℚ)} {P : Assoc ℚ} : ∀ {T : Tr}, IsConst T →
    ∀ x y, expr ip D P T x = expr ip D P T y := by
  intro T h x y
  induction T <;> simp_all [IsConst, expr]

/-- Expressions for which the evaluation is exact. -/
def EOk (D : List (List ℚ)) (S E : ℚ) (T : Tr) : Prop :=
  IsLeaf T ∨ IsAffine T ∧ (S = E ∨ RowAt D E)

theorem Spec.IsConst.affine {T : Tr} (h : IsConst T) : IsAffine T := by
  induction T with
  | const => trivial
  | abs _ c _ => exact h
  | plus _ l r i1 i2 | minus _ l r i1 i2 => exact ⟨i1 h.1, i2 h.2⟩
  | mult _ l r i1 i2 => exact Or.inl ⟨h.1, i2 h.2⟩
  | _ => exact h.elim

theorem expr_first (hL : Lin env n) (hc : Covers env.data S E) (hE : 0 ≤ E) (hSE : S ≤ E) (T : Tr)
    (he : IsExpr n T) (hf : Fresh env.params S E T) (hk : EOk env.data S E T) :
    ∃ T' r, Tr.computeRob env T = .ok (T', r) ∧ EAfter env.data S E T' ∧
      Pieces (expr .LINEAR env.data env.params T) E T'.st.z.samples := by
  have hD := hL.shape.inc
  induction T with
  | sig s v m td => exact sig_first hL hc hE hSE hf he
  | const s p v td => exact const_first hL hc hE hSE hf
  | abs s c ih =>
    have hk' := hk.resolve_left id
    obtain ⟨c', r, a1, a2, a3⟩ := ih he hf.2 (Or.inr ⟨IsConst.affine hk'.1, hk'.2⟩)
    have hcc := const_expr (ip := .LINEAR) (D := env.data) (P := env.params) hk'.1
    obtain ⟨z, b1, b2, b3, b4, b5⟩ := op_first (op := fun a _ => |a|) (g := opS fun a _ => |a|)
      (f := expr .LINEAR env.data env.params (.abs s c)) hD hSE hk'.2
      (fun _ _ => rfl) (fun _ _ => rfl) (fun p q x _ h1 _ _ _ _ _ => by
        simp only [expr, opS, Sample.valueAt]
        rw [hcc x p.time, h1]; ring) a2.st.2.2.2.2 a2.st.2.2.2.2 a3 a3
    obtain ⟨p, hp⟩ := front_ok (z := z) (by intro h; rw [h] at b4; simp [grid] at b4)
    refine ⟨.abs { s with z := z } c', p.value, ?_, ⟨⟨hf.1.1, hf.1.2.1, b2, b3, b4⟩, a2⟩, b5⟩
    simp only [Tr.computeRob, a1, bind, Except.bind, hL.ip, absLoop_eq, hf.1.2.2.1, b1, hp]
  | plus s l r ih1 ih2 =>
    have hk' := hk.resolve_left id
    obtain ⟨l', v1, a1, a2, a3⟩ := ih1 he.1 hf.2.1 (Or.inr ⟨hk'.1.1, hk'.2⟩)
    obtain ⟨r', v2, c1, c2, c3⟩ := ih2 he.2 hf.2.2 (Or.inr ⟨hk'.1.2, hk'.2⟩)
    obtain ⟨z, b1, b2, b3, b4, b5⟩ := op_first (op := (· + ·))
      (g := fun p q => ⟨p.time, p.value + q.value, p.derivative + q.derivative⟩)
      (f := expr .LINEAR env.data env.params (.plus s l r)) hD hSE hk'.2
      (fun _ _ => rfl) (fun _ _ => rfl) (fun p q x ht _ _ h1 h2 _ _ => by
        simp only [expr, Sample.valueAt] at h1 h2 ⊢
        rw [h1, h2, ht]; ring) a2.st.2.2.2.2 c2.st.2.2.2.2 a3 c3
    obtain ⟨p, hp⟩ := front_ok (z := z) (by intro h; rw [h] at b4; simp [grid] at b4)
    refine ⟨.plus { s with z := z } l' r', p.value, ?_, ⟨⟨hf.1.1, hf.1.2.1, b2, b3, b4⟩, a2, c2⟩, b5⟩
    simp only [Tr.computeRob, a1, c1, bind, Except.bind, hL.ip, hf.1.2.2.1]
    rw [binLoop_eq _ _ _ _ _ (a2.st.2.2.2.2.trans c2.st.2.2.2.2.symm), b1]
    simp only [hp]
  | minus s l r ih1 ih2 =>
    have hk' := hk.resolve_left id
    obtain ⟨l', v1, a1, a2, a3⟩ := ih1 he.1 hf.2.1 (Or.inr ⟨hk'.1.1, hk'.2⟩)
    obtain ⟨r', v2, c1, c2, c3⟩ := ih2 he.2 hf.2.2 (Or.inr ⟨hk'.1.2, hk'.2⟩)
    obtain ⟨z, b1, b2, b3, b4, b5⟩ := op_first (op := (· - ·))
      (g := fun p q => ⟨p.time, p.value - q.value, p.derivative - q.derivative⟩)
      (f := expr .LINEAR env.data env.params (.minus s l r)) hD hSE hk'.2
      (fun _ _ => rfl) (fun _ _ => rfl) (fun p q x ht _ _ h1 h2 _ _ => by
        simp only [expr, Sample.valueAt] at h1 h2 ⊢
        rw [h1, h2, ht]; ring) a2.st.2.2.2.2 c2.st.2.2.2.2 a3 c3
    obtain ⟨p, hp⟩ := front_ok (z := z) (by intro h; rw [h] at b4; simp [grid] at b4)
    refine ⟨.minus { s with z := z } l' r', p.value, ?_, ⟨⟨hf.1.1, hf.1.2.1, b2, b3, b4⟩, a2, c2⟩, b5⟩
    simp only [Tr.computeRob, a1, c1, bind, Except.bind, hL.ip, hf.1.2.2.1]
    rw [binLoop_eq _ _ _ _ _ (a2.st.2.2.2.2.trans c2.st.2.2.2.2.symm), b1]
    simp only [hp]
  | mult s l r ih1 ih2 =>
    have hk' := hk.resolve_left id
    have ha : IsAffine l ∧ IsAffine r := by
      rcases hk'.1 with h | h
      · exact ⟨h.1.affine, h.2⟩
      · exact ⟨h.1, h.2.affine⟩
    obtain ⟨l', v1, a1, a2, a3⟩ := ih1 he.1 hf.2.1 (Or.inr ⟨ha.1, hk'.2⟩)
    obtain ⟨r', v2, c1, c2, c3⟩ := ih2 he.2 hf.2.2 (Or.inr ⟨ha.2, hk'.2⟩)
    have : ∃ z, appendSamples .LINEAR Signal.empty
          (comb (opS (· * ·)) l'.st.z.samples r'.st.z.samples) = .ok z ∧
        z.beginTime = S ∧ z.endTime = E ∧ times z.samples = grid env.data S E ∧
        Pieces (expr .LINEAR env.data env.params (.mult s l r)) E z.samples := by
      rcases hk'.1 with h | h
      · have hcc := const_expr (ip := .LINEAR) (D := env.data) (P := env.params) h.1
        refine op_first (op := (· * ·))
          (g := fun p q => ⟨p.time, p.value * q.value, p.value * q.derivative⟩)
          hD hSE hk'.2
          (fun _ _ => rfl) (fun _ _ => rfl) (fun p q x ht h3 _ h1 h2 _ _ => by
            simp only [expr, Sample.valueAt] at h1 h2 h3 ⊢
            rw [hcc x p.time, h3, h2, ht]; ring) a2.st.2.2.2.2 c2.st.2.2.2.2 a3 c3
      · have hcc := const_expr (ip := .LINEAR) (D := env.data) (P := env.params) h.2
        refine op_first (op := (· * ·))
          (g := fun p q => ⟨p.time, p.value * q.value, p.derivative * q.value⟩)
          hD hSE hk'.2
          (fun _ _ => rfl) (fun _ _ => rfl) (fun p q x ht _ h3 h1 h2 _ _ => by
            simp only [expr, Sample.valueAt] at h1 h2 h3 ⊢
            rw [hcc x p.time, h3, h1]; ring) a2.st.2.2.2.2 c2.st.2.2.2.2 a3 c3
    obtain ⟨z, b1, b2, b3, b4, b5⟩ := this
    obtain ⟨p, hp⟩ := front_ok (z := z) (by intro h; rw [h] at b4; simp [grid] at b4)
    refine ⟨.mult { s with z := z } l' r', p.value, ?_, ⟨⟨hf.1.1, hf.1.2.1, b2, b3, b4⟩, a2, c2⟩, b5⟩
    simp only [Tr.computeRob, a1, c1, bind, Except.bind, hL.ip, hf.1.2.2.1]
    rw [binLoop_eq _ _ _ _ _ (a2.st.2.2.2.2.trans c2.st.2.2.2.2.symm), b1]
    simp only [hp]
  | _ => exact he.elim

theorem expr_again (hL : Lin env n) (hne : env.data ≠ []) (hE : 0 ≤ E) (hSE : S ≤ E) (T : Tr)
    (he : IsExpr n T) (ha : EAfter env.data S E T) :
    ∃ T' r, Tr.computeRob env T = .ok (T', r) ∧ EAfter env.data S E T' := by
  induction T with
  | sig s v m td => exact sig_again hL hne hE hSE ha he
  | const s p v td => exact const_again hL hne hE hSE ha
  | abs s c ih =>
    obtain ⟨c', r, a1, a2⟩ := ih he ha.2
    obtain ⟨p, hp⟩ := front_ok ha.1.ne
    refine ⟨.abs { s with z := s.z } c', p.value, ?_, ⟨ha.1, a2⟩⟩
    simp only [Tr.computeRob, a1, bind, Except.bind, hL.ip, absLoop_eq]
    rw [op_again ha.1 hSE (by rw [comb_times (opS_time _) rfl]; exact a2.st.2.2.2.2)]
    simp only [hp]
  | plus s l r ih1 ih2 =>
    obtain ⟨l', v1, a1, a2⟩ := ih1 he.1 ha.2.1
    obtain ⟨r', v2, c1, c2⟩ := ih2 he.2 ha.2.2
    obtain ⟨p, hp⟩ := front_ok ha.1.ne
    refine ⟨.plus { s with z := s.z } l' r', p.value, ?_, ⟨ha.1, a2, c2⟩⟩
    have htt := a2.st.2.2.2.2.trans c2.st.2.2.2.2.symm
    simp only [Tr.computeRob, a1, c1, bind, Except.bind, hL.ip]
    rw [binLoop_eq _ _ _ _ _ htt,
      op_again ha.1 hSE (by rw [comb_times (opS_time _) htt]; exact a2.st.2.2.2.2)]
    simp only [hp]
  | minus s l r ih1 ih2 =>
    obtain ⟨l', v1, a1, a2⟩ := ih1 he.1 ha.2.1
    obtain ⟨r', v2, c1, c2⟩ := ih2 he.2 ha.2.2
    obtain ⟨p, hp⟩ := front_ok ha.1.ne
    refine ⟨.minus { s with z := s.z } l' r', p.value, ?_, ⟨ha.1, a2, c2⟩⟩
    have htt := a2.st.2.2.2.2.trans c2.st.2.2.2.2.symm
    simp only [Tr.computeRob, a1, c1, bind, Except.bind, hL.ip]
    rw [binLoop_eq _ _ _ _ _ htt,
      op_again ha.1 hSE (by rw [comb_times (opS_time _) htt]; exact a2.st.2.2.2.2)]
    simp only [hp]
  | mult s l r ih1 ih2 =>
    obtain ⟨l', v1, a1, a2⟩ := ih1 he.1 ha.2.1
    obtain ⟨r', v2, c1, c2⟩ := ih2 he.2 ha.2.2
    obtain ⟨p, hp⟩ := front_ok ha.1.ne
    refine ⟨.mult { s with z := s.z } l' r', p.value, ?_, ⟨ha.1, a2, c2⟩⟩
    have htt := a2.st.2.2.2.2.trans c2.st.2.2.2.2.symm
    simp only [Tr.computeRob, a1, c1, bind, Except.bind, hL.ip]
    rw [binLoop_eq _ _ _ _ _ htt,
      op_again ha.1 hSE (by rw [comb_times (opS_time _) htt]; exact a2.st.2.2.2.2)]
    simp only [hp]
  | _ => exact he.elim

end
end STLRom
