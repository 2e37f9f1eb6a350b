import Verif.Props.LeftTime
import Verif.Props.Online
import Verif.Proofs.TotalLeft

/-!
# Properties C17 and C79 in the LEFT_TIME semantics: when a number is returned
-/

namespace STLRom
namespace Props
open Signal Spec

/-! ## C17 in the LEFT_TIME semantics -/

/-- C17 in the LEFT_TIME semantics, for every formula without `until` and any interpolation: `eval_rob` returns a
number if every comparison is evaluated over a proper interval in which there is data and every `ev`
has a proper window.  The trace need not cover the horizon.  Missing: `until`, RIGHT_TIME, and the other
formulas (where it fails, `C17_left_atom_partial` and `C17_left_false`). -/
theorem C17_left_partial (g : Globals) (m : Monitor) (n : ℕ) (T : Tr) (s e : ℚ) (hm : m.formula = some T)
    (hs : m.sem = .LEFT_TIME) (hF : IsFormula n m.params T) (hD : WellShaped n m.data) (hne : m.data ≠ [])
    (he : 0 ≤ e) (hw : LeftWindows m.data m.params s e T) : ∃ v, (m.evalRob g s e).2.2 = .ok v := by
  unfold Monitor.evalRob
  rw [hm]
  simp only
  obtain ⟨x, hx⟩ := run3_lft (env := m.envOf g) hD hs hne (s := s) he hF hw
  unfold Monitor.envOf at hx
  simp only at hx
  rw [hx]
  exact ⟨_, rfl⟩

/-- C17 for one comparison whose left operand is a signal or a constant, in the LEFT_TIME semantics: a number is
returned exactly if the evaluation interval is proper and some row is later than its beginning; otherwise the
evaluation is undefined behaviour.  Missing: all other formulas. -/
theorem C17_left_atom_partial (g : Globals) (m : Monitor) (n : ℕ) (st : St) (k : Cmp) (l r : Tr) (s e : ℚ)
    (hm : m.formula = some (.atom st k l r)) (hs : m.sem = .LEFT_TIME)
    (hF : IsFormula n m.params (.atom st k l r)) (hD : WellShaped n m.data) (hne : m.data ≠ []) (he : 0 ≤ e)
    (hl : IsLeaf l) :
    (s < e ∧ (∃ row ∈ m.data, ∃ t, row.head? = some t ∧ s < t) → ∃ v, (m.evalRob g s e).2.2 = .ok v) ∧
    (¬ (s < e ∧ ∃ row ∈ m.data, ∃ t, row.head? = some t ∧ s < t) → (m.evalRob g s e).2.2 = .error .ub) := by
  refine ⟨fun h => C17_left_partial g m n _ s e hm hs hF hD hne he ⟨h.1, h.2, Or.inl hl⟩, fun h => ?_⟩
  have hF0 := isFormula_prepare (P := m.params) _ s e hF
  have hf := fresh_prepare m.params (.atom st k l r) s e
  have hx := atom_lft_ub (env := m.envOf g) (S := s) hD hs hne he hF0 hf (by
    by_cases hse : s < e
    · refine Or.inr fun row hr => not_lt.1 fun h1 => h ⟨hse, row, hr, rowTime row, ?_, h1⟩
      have := hD.1 row hr
      cases row with
      | nil => simp at this
      | cons t row => rfl
    · exact Or.inl (not_lt.1 hse))
  unfold Monitor.evalRob
  rw [hm]
  unfold Monitor.envOf at hx
  have hx' : Tr.computeRob _ (Monitor.prepare m.params s e (.atom st k l r)) = .error .ub := hx
  simp only [Monitor.run3, hx', bind, Except.bind]

/-- `alw_[1,2] (not (x > 0) or ev_[0,1] y > 0)`, with two rows, the last one at 2. -/
example : ∃ v, ((leftM (alwT 1 2 (.or .init (.not .init (above sx 0)) (evT 0 1 (above sy 0))))
    [[0, 1, 2], [2, 0, -1]]).evalRob1 .init 0).2.2 = .ok v :=
  C17_left_partial .init (leftM _ [[0, 1, 2], [2, 0, -1]]) 2 _ 0 0 rfl rfl
    ⟨by decide +kernel, by decide +kernel, ⟨⟨1, rfl, by decide, by decide⟩, trivial⟩,
      by decide +kernel, by decide +kernel, ⟨2, rfl, by decide, by decide⟩, trivial⟩
    ⟨by decide +kernel, by simp [leftM, mon, List.pairwise_cons]⟩ (by simp [leftM, mon]) le_rfl
    ⟨⟨by decide +kernel, ⟨[2, 0, -1], by simp [leftM, mon], 2, rfl, by decide +kernel⟩, Or.inl trivial⟩,
      by decide +kernel, by decide +kernel, ⟨[2, 0, -1], by simp [leftM, mon], 2, rfl, by decide +kernel⟩,
      Or.inl trivial⟩

/-- `x > 0` from 1 to 3, and from 5 on, with the last row at 4. -/
example : (∃ v, ((leftM (above sx 0) crossXD).evalRob .init 1 3).2.2 = .ok v) ∧
    ((leftM (above sx 0) crossXD).evalRob .init 5 6).2.2 = .error .ub :=
  ⟨(C17_left_atom_partial .init (leftM (above sx 0) crossXD) 2 .init .greater sx (num 0) 1 3 rfl rfl
    ⟨⟨1, rfl, by decide, by decide⟩, trivial⟩ crossXD_rows (by decide) (by norm_num) trivial).1
    ⟨by norm_num, [2, 1, 0], by simp [leftM, mon, crossXD], 2, rfl, by norm_num⟩,
  (C17_left_atom_partial .init (leftM (above sx 0) crossXD) 2 .init .greater sx (num 0) 5 6 rfl rfl
    ⟨⟨1, rfl, by decide, by decide⟩, trivial⟩ crossXD_rows (by decide) (by norm_num) trivial).2 (by
      rintro ⟨-, row, hr, t, ht, h⟩
      simp only [leftM, mon, crossXD, List.mem_cons, List.not_mem_nil, or_false] at hr
      rcases hr with rfl | rfl | rfl <;> simp only [List.head?_cons, Option.some.injEq] at ht <;>
        rw [← ht] at h <;> norm_num at h)⟩

/-- C17 fails in the LEFT_TIME semantics on traces that cover the horizon: `ev_[0,0] x > 0` from 0 to 2, although
`alw_[0,0] x > 0` and `x > 0` return a number there; and `ev_[0,2] x + y > 0` at 1 when there is no
row between 1 and 3. -/
theorem C17_left_false :
    ((leftM (evT 0 0 (above sx 0)) crossXD).evalRob .init 0 2).2.2 = .error .ub ∧
    ((leftM (alwT 0 0 (above sx 0)) crossXD).evalRob .init 0 2).2.2 = .ok (-(1 / 10 ^ 14)) ∧
    ((leftM (above sx 0) crossXD).evalRob .init 0 2).2.2 = .ok (-(1 / 10 ^ 14)) ∧
    ((leftM (evT 0 2 (.atom .init .greater (.plus .init sx sy) (num 0))) oneD).evalRob1 .init 1).2.2 =
      .error .ub := by
  refine ⟨?_, ?_, ?_, ?_⟩ <;> decide +kernel

/-! ## C79: a number is returned -/

theorem leftWindows_ready {m : Monitor} {n : ℕ} {T : Tr} {sa : St} {I : Ival} {k : Cmp} {l r : Tr} {t : ℚ}
    (hR : LeftReady n m T t) (hr : reach m.params T = bound m.params I.stopStr I.stop)
    (hA : AtomsOk m.data m.params (t + bound m.params I.beginStr I.begin) (t + bound m.params I.stopStr I.stop)
      (.atom sa k l r))
    (hab : bound m.params I.beginStr I.begin < bound m.params I.stopStr I.stop) :
    LeftWindows m.data m.params (t + bound m.params I.beginStr I.begin) (t + bound m.params I.stopStr I.stop)
      (.atom sa k l r) := by
  have h1 : t + bound m.params I.beginStr I.begin < t + bound m.params I.stopStr I.stop := by linarith
  obtain ⟨_, row, u, h2, h3, h4⟩ := hR.covers
  rw [hr] at h4
  refine ⟨h1, ⟨row, List.mem_of_getLast? h2, u, h3, h1.trans_le h4⟩, ?_⟩
  rcases hA with h | ⟨_, _, h | h⟩
  · exact Or.inl h.1
  · exact absurd h h1.ne
  · exact Or.inr h

/-- C79 for `ev`, the returned value included: a number is returned, and it is the supremum over the window of
the time since the truth last changed within the window.  Missing: as in `C79_partial`. -/
theorem C79_total_partial (g : Globals) (m : Monitor) (n : ℕ) (s sa : St) (I : Ival) (k : Cmp) (l r : Tr)
    (a b t : ℚ) (h : LeftReady n m (.ev s I (.atom sa k l r)) t)
    (ha : bound m.params I.beginStr I.begin = a) (hb : bound m.params I.stopStr I.stop = b) (hab : a < b)
    (h0 : ∀ u, (u = t + a ∨ RowAt m.data u) → t + a ≤ u → u ≤ t + b →
      marginAt m.data m.params k l r u ≠ 0)
    (hB : 1 / 10 ^ 14 + (b - a) ≤ g.B) :
    ∃ v, (m.evalRob1 g t).2.2 = .ok v ∧
      IsLUB (leftTimes (marginAt m.data m.params k l r) (t + a) (t + a) (t + b)) v := by
  obtain ⟨v, hv⟩ := C17_left_partial g m n _ t t h.formula h.sem h.shape h.rows h.covers.ne h.start
    ⟨h.shape.1.trans_lt (by rw [ha, hb]; exact hab), leftWindows_ready h (by simp [reach]) h.atoms (by rw [ha, hb]; exact hab)⟩
  exact ⟨v, hv, C79_partial g _ m _ n s sa I k l r a b t v h ha hb hab h0 hB
    (Prod.ext rfl (Prod.ext rfl hv))⟩

/-- C79 for `alw`, the returned value included.  Missing: as in `C79_partial`. -/
theorem C79_alw_total_partial (g : Globals) (m : Monitor) (n : ℕ) (s sa : St) (I : Ival) (k : Cmp) (l r : Tr)
    (a b t : ℚ) (h : LeftReady n m (.alw s I (.atom sa k l r)) t)
    (ha : bound m.params I.beginStr I.begin = a) (hb : bound m.params I.stopStr I.stop = b) (hab : a < b)
    (h0 : ∀ u, (u = t + a ∨ RowAt m.data u) → t + a ≤ u → u ≤ t + b →
      marginAt m.data m.params k l r u ≠ 0)
    (hB : 1 / 10 ^ 14 + (b - a) ≤ g.B) :
    ∃ v, (m.evalRob1 g t).2.2 = .ok v ∧
      IsGLB (leftTimes (marginAt m.data m.params k l r) (t + a) (t + a) (t + b)) v := by
  obtain ⟨v, hv⟩ := C17_left_partial g m n _ t t h.formula h.sem h.shape h.rows h.covers.ne h.start
    (leftWindows_ready (sa := sa) (k := k) h (by simp [reach]) h.atoms (by rw [ha, hb]; exact hab))
  exact ⟨v, hv, C79_alw_partial g _ m _ n s sa I k l r a b t v h ha hb hab h0 hB
    (Prod.ext rfl (Prod.ext rfl hv))⟩

example : ∃ v, ((leftM (evT 0 3 (above sx 0)) crossXD).evalRob1 .init 0).2.2 = .ok v ∧
    IsLUB (leftTimes (marginAt crossXD [] .greater sx (num 0)) (0 + 0) (0 + 0) (0 + 3)) v :=
  C79_total_partial .init (leftM (evT 0 3 (above sx 0)) crossXD) 2 .init .init (lit 0 3) .greater sx (num 0) 0 3 0
    crossXEv_ready rfl rfl (by norm_num) (fun u h _ _ => crossXD_ne u h) (by decide +kernel)

example : ∃ v, ((leftM (alwT 0 3 (above sx 0)) crossXD).evalRob1 .init 0).2.2 = .ok v ∧
    IsGLB (leftTimes (marginAt crossXD [] .greater sx (num 0)) (0 + 0) (0 + 0) (0 + 3)) v :=
  C79_alw_total_partial .init (leftM (alwT 0 3 (above sx 0)) crossXD) 2 .init .init (lit 0 3) .greater sx (num 0) 0 3 0
    crossXAlw_ready rfl rfl (by norm_num) (fun u h _ _ => crossXD_ne u h) (by decide +kernel)

end Props
end STLRom
