import Verif.Props.Beyond
import Verif.Props.Joined
import Verif.Proofs.Complete

/-!
# Property C83: the time up to which a formula says its result is complete

`get_end_complete` of the root returns a time up to which the computed robustness is meant to be final: rows that
arrive later should not change it.
-/

namespace STLRom
namespace Props
open Signal Spec

/-- The full claim, for the nominal value: if the formula says after the evaluation at `t` that it is complete up to
`t` or later, then no further rows change the value. -/
def C83_full : Prop := ∀ (g : Globals) (m : Monitor) (n : ℕ) (T T' : Tr) (t v : ℚ) (g' : Globals) (m' : Monitor)
  (R : List (List ℚ)), Begun .LINEAR n g.B m T t t → PlainAtoms T → 0 ≤ lastTime m.data →
    WellShaped n (m.data ++ R) → m.evalRob1 g t = (g', m', .ok v) → m'.formula = some T' →
    t ≤ T'.endComplete m.params → (Monitor.evalRob1 g { m with data := m.data ++ R } t).2.2 = .ok v

/-- What a formula with at most one temporal operator, at its top, says about being complete up to the end of the
evaluation interval is right in either mode: the rows reach past the horizon. -/
theorem C83_covers (g : Globals) (m : Monitor) (n : ℕ) (T T' : Tr) (s e v : ℚ) (g' : Globals) (m' : Monitor)
    (hm : m.formula = some T) (hsem : m.sem = .SPACE) (hF : IsFormula n m.params T) (hT : IsSingle T)
    (hD : WellShaped n m.data) (hne : m.data ≠ []) (h0 : 0 ≤ lastTime m.data)
    (h : m.evalRob g s e = (g', m', .ok v)) (h' : m'.formula = some T') (he : e ≤ T'.endComplete m.params) :
    e + reach m.params T ≤ lastTime m.data := by
  simp only [Monitor.evalRob, hm] at h
  split at h
  · rename_i T1 r lo up hr
    simp only [Prod.mk.injEq] at h
    obtain ⟨_, h2, _⟩ := h
    rw [← h2] at h'
    simp only [Option.some.injEq] at h'
    subst h'
    exact single_complete (env := ⟨g.B, m.sem, m.ip, m.data, m.params⟩) h0 hsem (rowTime_le_last hne hD) hF hT hr he
  · simp at h

/-- C83 for formulas with at most one temporal operator, at their top, with LINEAR interpolation: the value is the
robustness on every longer trace, the evaluation there returns it too, and both bounds have met.  Missing: nested
temporal operators and temporal operators inside Boolean ones, where the claim fails (`C83_false`,
`C83_and_false`), and `until`. -/
theorem C83_partial (g : Globals) (m : Monitor) (n : ℕ) (T T' : Tr) (t v : ℚ) (g' : Globals) (m' : Monitor)
    (R : List (List ℚ)) (hb : Begun .LINEAR n g.B m T t t) (hp : PlainAtoms T) (hT : IsSingle T)
    (h0 : 0 ≤ lastTime m.data) (hD : WellShaped n (m.data ++ R)) (h : m.evalRob1 g t = (g', m', .ok v))
    (h' : m'.formula = some T') (he : t ≤ T'.endComplete m.params) :
    rob .LINEAR (m.data ++ R) m.params T t = er v ∧ m'.lowerRob = v ∧ m'.upperRob = v ∧
      (Monitor.evalRob1 g { m with data := m.data ++ R } t).2.2 = .ok v := by
  obtain ⟨row, u, r1, r2, r3⟩ := hb.first
  have hne : m.data ≠ [] := by rintro q; rw [q] at r1; simp at r1
  have hr := C83_covers g m n T T' t t v g' m' hb.formula hb.sem hb.shape hT hb.rows hne h0 h h' he
  have hR := begun_ready hb hr
  obtain ⟨g1, m1, v1, k1, k2, k3, k4⟩ := C20_boolean_partial g m n T t hR hp (single_joined hT)
  rw [h] at k1
  simp only [Prod.mk.injEq, Except.ok.injEq] at k1
  obtain ⟨_, rfl, rfl⟩ := k1
  have hs := same_prefix hne hD
  have hu : ∀ i s, s ≤ lastTime m.data → trace .LINEAR m.data i s = trace .LINEAR (m.data ++ R) i s :=
    fun i s hs' => trace_upto hb.rows hD hs i hs'
  have hrob := rob_upto hu hb.shape hr
  have hR' : Ready .LINEAR n g.B { m with data := m.data ++ R } T t t := by
    refine ⟨hb.formula, hb.sem, hb.interpol, hb.names, hD, hb.shape, ?_, hb.start, hb.stop, ⟨row, u, ?_, r2, r3⟩, ?_⟩
    · exact within_more hu hb.shape hr hR.within
    · show (m.data ++ R).head? = _
      rw [List.head?_append, r1]; rfl
    · obtain ⟨last, l1, l2⟩ := lastTime_eq (D := m.data ++ R) (by simp [hne]) hD
      refine ⟨last, _, l1, l2, hr.trans ?_⟩
      obtain ⟨la, a1, a2⟩ := lastTime_eq hne hb.rows
      have := rowTime_le_last (D := m.data ++ R) (by simp [hne]) hD la
        (List.mem_append_left _ (List.mem_of_getLast? a1))
      rwa [rowTime_of_head a2] at this
  obtain ⟨g2, m2, v2, j1, j2, _⟩ := C20_boolean_partial g _ n T t hR' hp (single_joined hT)
  refine ⟨hrob ▸ k2, k3, k4, ?_⟩
  rw [j1]
  have : er v2 = er v := by rw [← j2, ← k2]; exact hrob.symm
  rw [er_inj this]

theorem formula_any {n : ℕ} {P : Assoc ℚ} : ∀ {T : Tr}, IsFormula n P T → AnyFormula n P T := by
  intro T
  induction T with
  | atom => exact id
  | not _ _ ih => exact ih
  | and _ _ _ i1 i2 | or _ _ _ i1 i2 | implies _ _ _ i1 i2 => exact fun h => ⟨i1 h.1, i2 h.2⟩
  | ev _ _ _ ih | alw _ _ _ ih => exact fun h => ⟨h.1, h.2.1, ih h.2.2⟩
  | _ => exact fun h => h.elim

/-- C83 for the same formulas with PREVIOUS interpolation, over any expressions: later rows change neither the
outcome nor the bounds. -/
theorem C83_previous_partial (g : Globals) (m : Monitor) (n : ℕ) (T T' : Tr) (s e v : ℚ) (g' : Globals) (m' : Monitor)
    (R : List (List ℚ)) (hm : m.formula = some T) (hsem : m.sem = .SPACE) (hip : m.ip = .PREVIOUS)
    (hF : IsFormula n m.params T) (hT : IsSingle T) (hne : m.data ≠ []) (h0 : 0 ≤ lastTime m.data)
    (hD : WellShaped n (m.data ++ R)) (h : m.evalRob g s e = (g', m', .ok v)) (h' : m'.formula = some T')
    (he : e ≤ T'.endComplete m.params) : SameOutcome g m { m with data := m.data ++ R } s e := by
  have hw := wellShaped_prefix hD
  have hr := C83_covers g m n T T' s e v g' m' hm hsem hF hT hw hne h0 h h' he
  obtain ⟨P, r, S, S', e1, e2, u, u1, u2⟩ := same_prefix hne hD
  exact C30_previous_partial g m n T s e _ hm hip (formula_any hF) hw hD ⟨P, r, S, S', e1, e2, u, u1, hr.trans u2⟩

/-! ## Witnesses -/

/-- Two rows. -/
def shortD : List (List ℚ) := [[0, 1, 1], [3, 1, 1]]

/-- They are followed by a third. -/
def longD (x : ℚ) : List (List ℚ) := shortD ++ [[6, x, 1]]

theorem longD_rows (x : ℚ) : WellShaped 2 (longD x) := by
  refine ⟨by simp [longD, shortD], ?_⟩
  simp only [longD, shortD, List.cons_append, List.nil_append, List.pairwise_cons, List.mem_cons, List.not_mem_nil,
    or_false]
  simp
  norm_num

theorem longD_within {x : ℚ} (hx : x = 7 ∨ x = -7) {s : ℚ} (hs : 0 ≤ s) (T : Tr)
    (hT : T = sx ∨ T = sy) (t : ℚ) (ht : s ≤ t) :
    -Globals.init.B ≤ margin .greater (expr .LINEAR (longD x) [] T t) (expr .LINEAR (longD x) [] (num 0) t) ∧
      margin .greater (expr .LINEAR (longD x) [] T t) (expr .LINEAR (longD x) [] (num 0) t) ≤ Globals.init.B := by
  have hh : ∀ row, (longD x).head? = some row → rowTime row ≤ 0 := by
    intro row h
    simp only [longD, shortD, List.cons_append, List.head?_cons, Option.some.injEq] at h
    subst h
    decide +kernel
  refine trace_abs (longD_rows x) hh (by simp [longD, shortD]) (k := .greater) (l := T) (r := num 0)
    (by rcases hT with rfl | rfl <;> exact ⟨trivial, trivial⟩) ?_ t (hs.trans ht)
  rcases hx with rfl | rfl <;> rcases hT with rfl | rfl <;> decide +kernel

/-- `ev_[0,1] ev_[0,5] x > 0`. -/
def evevF : Tr := evT 0 1 (evT 0 5 (above sx 0))

theorem evevF_ready : Ready .LINEAR 2 Globals.init.B (mon .LINEAR evevF (longD 7)) evevF 0 0 := by
  refine ⟨rfl, rfl, rfl, rfl, longD_rows 7, ?_, ?_, le_rfl, le_rfl, ?_⟩
  · exact ⟨by decide +kernel, by decide +kernel, by decide +kernel, by decide +kernel, ⟨1, rfl, by decide, by decide⟩,
      trivial⟩
  · intro t h _
    exact longD_within (.inl rfl) (by decide +kernel) sx (.inl rfl) t h
  · exact ⟨⟨[0, 1, 1], 0, rfl, rfl, le_rfl⟩, ⟨[6, 7, 1], 6, rfl, rfl, by decide +kernel⟩⟩

/-- C83 fails for nested temporal operators: with rows up to time 3 the outer operator looks only at where the signal
of the inner one ends and says it is complete up to time 0, though the formula looks 6 ahead; the value 1 becomes 7
when the row at time 6 arrives. -/
theorem C83_false : ¬ C83_full := by
  intro h
  have := h .init (mon .LINEAR evevF shortD) 2 evevF
    (((mon .LINEAR evevF shortD).evalRob1 .init 0).2.1.formula.getD evevF) 0 1
    ((mon .LINEAR evevF shortD).evalRob1 .init 0).1 ((mon .LINEAR evevF shortD).evalRob1 .init 0).2.1 [[6, 7, 1]]
    (begun_prefix (m := mon .LINEAR evevF shortD) (R := [[6, 7, 1]]) (by decide +kernel) evevF_ready)
    ⟨trivial, trivial⟩ (by decide +kernel) (longD_rows 7) (Prod.ext rfl (Prod.ext rfl (by decide +kernel)))
    (by decide +kernel) (by decide +kernel)
  revert this
  decide +kernel

/-- `y > 0 and alw_[0,5] x > 0`. -/
def andAlwF : Tr := .and .init (above sy 0) (alwT 0 5 (above sx 0))

theorem andAlwF_ready : Ready .LINEAR 2 Globals.init.B (mon .LINEAR andAlwF (longD (-7))) andAlwF 0 0 := by
  refine ⟨rfl, rfl, rfl, rfl, longD_rows (-7), ?_, ?_, le_rfl, le_rfl, ?_⟩
  · exact ⟨⟨⟨2, rfl, by decide, by decide⟩, trivial⟩, by decide +kernel, by decide +kernel,
      ⟨1, rfl, by decide, by decide⟩, trivial⟩
  · refine ⟨fun t h _ => ?_, fun t h _ => ?_⟩
    · exact longD_within (.inr rfl) (by decide +kernel) sy (.inr rfl) t h
    · exact longD_within (.inr rfl) (by decide +kernel) sx (.inl rfl) t h
  · exact ⟨⟨[0, 1, 1], 0, rfl, rfl, le_rfl⟩, ⟨[6, -7, 1], 6, rfl, rfl, by decide +kernel⟩⟩

/-- C83 fails for a temporal operator inside a Boolean one too, which returns just the end of its own signal. -/
theorem C83_and_false : ¬ C83_full := by
  intro h
  have := h .init (mon .LINEAR andAlwF shortD) 2 andAlwF
    (((mon .LINEAR andAlwF shortD).evalRob1 .init 0).2.1.formula.getD andAlwF) 0 1
    ((mon .LINEAR andAlwF shortD).evalRob1 .init 0).1 ((mon .LINEAR andAlwF shortD).evalRob1 .init 0).2.1 [[6, -7, 1]]
    (begun_prefix (m := mon .LINEAR andAlwF shortD) (R := [[6, -7, 1]]) (by decide +kernel) andAlwF_ready)
    ⟨⟨trivial, trivial⟩, trivial, trivial⟩ (by decide +kernel) (longD_rows (-7))
    (Prod.ext rfl (Prod.ext rfl (by decide +kernel))) (by decide +kernel) (by decide +kernel)
  revert this
  decide +kernel

/-- The full claim for the upper bound and formulas with one temporal operator. -/
def C83_up_full : Prop := ∀ (g : Globals) (m : Monitor) (n : ℕ) (T T' : Tr) (t v : ℚ) (g' : Globals) (m' : Monitor)
  (R : List (List ℚ)), Begun .LINEAR n g.B m T t t → PlainAtoms T → IsSingle T → 0 ≤ lastTime m.data →
    WellShaped n (m.data ++ R) → m.evalRob1 g t = (g', m', .ok v) → m'.formula = some T' →
    t ≤ T'.endCompleteUp m.params →
      (Monitor.evalRob1 g { m with data := m.data ++ R } t).2.1.upperRob = m'.upperRob

/-- `ev_[5,5] x > 0`. -/
def atFiveF : Tr := evT 5 5 (above sx 0)

theorem atFiveF_ready : Ready .LINEAR 2 Globals.init.B (mon .LINEAR atFiveF (longD 7)) atFiveF 0 0 := by
  refine ⟨rfl, rfl, rfl, rfl, longD_rows 7, ?_, ?_, le_rfl, le_rfl, ?_⟩
  · exact ⟨by decide +kernel, by decide +kernel, ⟨1, rfl, by decide, by decide⟩, trivial⟩
  · intro t h _
    exact longD_within (.inl rfl) (by decide +kernel) sx (.inl rfl) t h
  · exact ⟨⟨[0, 1, 1], 0, rfl, rfl, le_rfl⟩, ⟨[6, 7, 1], 6, rfl, rfl, by decide +kernel⟩⟩

/-- `get_end_complete_up` fails there already: where no row reaches the window, the signal of the bound is a single
placeholder at the start of the window, and a window of one point counts as complete.  The upper bound is then the
constant for "unknown" and is replaced by 5 when the row at time 6 arrives. -/
theorem C83_up_false : ¬ C83_up_full := by
  intro h
  have := h .init (mon .LINEAR atFiveF shortD) 2 atFiveF
    (((mon .LINEAR atFiveF shortD).evalRob1 .init 0).2.1.formula.getD atFiveF) 0 1
    ((mon .LINEAR atFiveF shortD).evalRob1 .init 0).1 ((mon .LINEAR atFiveF shortD).evalRob1 .init 0).2.1 [[6, 7, 1]]
    (begun_prefix (m := mon .LINEAR atFiveF shortD) (R := [[6, 7, 1]]) (by decide +kernel) atFiveF_ready)
    ⟨trivial, trivial⟩ ⟨trivial, trivial⟩ (by decide +kernel) (longD_rows 7)
    (Prod.ext rfl (Prod.ext rfl (by decide +kernel))) (by decide +kernel) (by decide +kernel)
  revert this
  decide +kernel

/-- The full claim for the lower bound. -/
def C83_low_full : Prop := ∀ (g : Globals) (m : Monitor) (n : ℕ) (T T' : Tr) (t v : ℚ) (g' : Globals) (m' : Monitor)
  (R : List (List ℚ)), Begun .LINEAR n g.B m T t t → PlainAtoms T → 0 ≤ lastTime m.data →
    WellShaped n (m.data ++ R) → m.evalRob1 g t = (g', m', .ok v) → m'.formula = some T' →
    t ≤ T'.endCompleteLow m.params →
      (Monitor.evalRob1 g { m with data := m.data ++ R } t).2.1.lowerRob = m'.lowerRob

/-- `get_end_complete_low` fails for `ev_[0,1] (ev_[0,5] x > 0)`: it says 0 with rows up to 3, and the lower bound at
0 is 1 then and grows when the row at time 6 arrives.  `get_end_complete_up` says -1. -/
theorem C83_low_false : ¬ C83_low_full ∧
    (((mon .LINEAR evevF shortD).evalRob1 .init 0).2.1.formula.getD evevF).endCompleteUp [] = -1 := by
  refine ⟨fun h => ?_, by decide +kernel⟩
  have := h .init (mon .LINEAR evevF shortD) 2 evevF
    (((mon .LINEAR evevF shortD).evalRob1 .init 0).2.1.formula.getD evevF) 0 1
    ((mon .LINEAR evevF shortD).evalRob1 .init 0).1 ((mon .LINEAR evevF shortD).evalRob1 .init 0).2.1 [[6, 7, 1]]
    (begun_prefix (m := mon .LINEAR evevF shortD) (R := [[6, 7, 1]]) (by decide +kernel) evevF_ready)
    ⟨trivial, trivial⟩ (by decide +kernel) (longD_rows 7)
    (Prod.ext rfl (Prod.ext rfl (by decide +kernel))) (by decide +kernel) (by decide +kernel)
  revert this
  decide +kernel

/-! ## Examples -/

/-- `ev_[0,2] (x > 0 or y > 0)`. -/
def evOrF : Tr := evT 0 2 (.or .init (above sx 0) (above sy 0))

theorem evOrF_shape : IsFormula 2 [] evOrF :=
  ⟨by decide +kernel, by decide +kernel, ⟨⟨1, rfl, by decide, by decide⟩, trivial⟩,
    ⟨2, rfl, by decide, by decide⟩, trivial⟩

theorem evOrF_ready : Ready .LINEAR 2 Globals.init.B (mon .LINEAR evOrF (longD 7)) evOrF 1 1 := by
  refine ⟨rfl, rfl, rfl, rfl, longD_rows 7, evOrF_shape, ?_, by norm_num, le_rfl, ?_⟩
  · refine ⟨fun t h _ => ?_, fun t h _ => ?_⟩
    · exact longD_within (.inl rfl) (by decide +kernel) sx (.inl rfl) t h
    · exact longD_within (.inl rfl) (by decide +kernel) sy (.inr rfl) t h
  · exact ⟨⟨[0, 1, 1], 0, rfl, rfl, by norm_num⟩, ⟨[6, 7, 1], 6, rfl, rfl, by decide +kernel⟩⟩

/-- At time 1 the formula is complete with rows up to 3. -/
example := C83_partial .init (mon .LINEAR evOrF shortD) 2 evOrF
    (((mon .LINEAR evOrF shortD).evalRob1 .init 1).2.1.formula.getD evOrF) 1 1
    ((mon .LINEAR evOrF shortD).evalRob1 .init 1).1 ((mon .LINEAR evOrF shortD).evalRob1 .init 1).2.1 [[6, 7, 1]]
    (begun_prefix (m := mon .LINEAR evOrF shortD) (R := [[6, 7, 1]]) (by decide +kernel) evOrF_ready)
    ⟨⟨trivial, trivial⟩, trivial, trivial⟩ ⟨⟨trivial, trivial⟩, trivial, trivial⟩ (by decide +kernel) (longD_rows 7)
    (Prod.ext rfl (Prod.ext rfl (by decide +kernel))) (by decide +kernel) (by decide +kernel)

/-- At time 2 it is not, and does not say so. -/
example : (((mon .LINEAR evOrF shortD).evalRob1 .init 2).2.1.formula.getD evOrF).endComplete [] = 1 := by decide +kernel

example := C83_covers .init (mon .LINEAR evOrF shortD) 2 evOrF
    (((mon .LINEAR evOrF shortD).evalRob .init 0 1).2.1.formula.getD evOrF) 0 1 1
    ((mon .LINEAR evOrF shortD).evalRob .init 0 1).1 ((mon .LINEAR evOrF shortD).evalRob .init 0 1).2.1 rfl rfl evOrF_shape
    ⟨⟨trivial, trivial⟩, trivial, trivial⟩ (wellShaped_prefix (longD_rows 7)) (by decide +kernel) (by decide +kernel)
    (Prod.ext rfl (Prod.ext rfl (by decide +kernel))) (by decide +kernel) (by decide +kernel)

example := C83_previous_partial .init (mon .PREVIOUS evOrF shortD) 2 evOrF
    (((mon .PREVIOUS evOrF shortD).evalRob .init 0 1).2.1.formula.getD evOrF) 0 1 1
    ((mon .PREVIOUS evOrF shortD).evalRob .init 0 1).1 ((mon .PREVIOUS evOrF shortD).evalRob .init 0 1).2.1 [[6, 7, 1]]
    rfl rfl rfl evOrF_shape ⟨⟨trivial, trivial⟩, trivial, trivial⟩ (by decide +kernel) (by decide +kernel) (longD_rows 7)
    (Prod.ext rfl (Prod.ext rfl (by decide +kernel))) (by decide +kernel) (by decide +kernel)

end Props
end STLRom
