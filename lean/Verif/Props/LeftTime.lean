import Verif.Props.Formula
import Verif.Proofs.LeftRun

/-!
# Property C79: `ev` and `alw` over a comparison in the LEFT_TIME semantics
-/

namespace STLRom
namespace Props
open Signal Spec

/-! ## C79 left time robustness over a window -/

/-- The full claim: on a trace that covers the window, `eval_rob` in LEFT_TIME mode returns the supremum
(for `ev`) or the infimum (for `alw`) over the window of the time since the truth of the comparison last
changed in the data, and both bounds are equal to it. -/
def C79_full : Prop := ∀ (g : Globals) (m : Monitor) (n : ℕ) (s sa : St) (I : Ival) (k : Cmp) (l r : Tr)
    (a b t first : ℚ) (row : List ℚ),
  bound m.params I.beginStr I.begin = a → bound m.params I.stopStr I.stop = b → a < b →
  m.data.head? = some row → row.head? = some first →
  (∀ u, (u = t + a ∨ RowAt m.data u) → t + a ≤ u → u ≤ t + b → marginAt m.data m.params k l r u ≠ 0) →
  1 / 10 ^ 14 + (t + b - first) ≤ g.B →
  (LeftReady n m (.ev s I (.atom sa k l r)) t → ∃ g' m' v, m.evalRob1 g t = (g', m', .ok v) ∧
    IsLUB (leftTimes (marginAt m.data m.params k l r) first (t + a) (t + b)) v ∧
    m'.lowerRob = v ∧ m'.upperRob = v) ∧
  (LeftReady n m (.alw s I (.atom sa k l r)) t → ∃ g' m' v, m.evalRob1 g t = (g', m', .ok v) ∧
    IsGLB (leftTimes (marginAt m.data m.params k l r) first (t + a) (t + b)) v ∧
    m'.lowerRob = v ∧ m'.upperRob = v)

/-- C79 for `ev`, with the time measured from the beginning of the window only: a returned value is the
supremum over the window of the time since the truth last changed within the window.  Missing: what
happened before the window (`C79_false`), the bounds (`C79_bounds_false`), that a number is returned,
margins that are zero at a row or where the window begins, and windows of length 0. -/
theorem C79_partial (g g' : Globals) (m m' : Monitor) (n : ℕ) (s sa : St) (I : Ival) (k : Cmp) (l r : Tr)
    (a b t v : ℚ) (h : LeftReady n m (.ev s I (.atom sa k l r)) t)
    (ha : bound m.params I.beginStr I.begin = a) (hb : bound m.params I.stopStr I.stop = b) (hab : a < b)
    (h0 : ∀ u, (u = t + a ∨ RowAt m.data u) → t + a ≤ u → u ≤ t + b →
      marginAt m.data m.params k l r u ≠ 0)
    (hB : 1 / 10 ^ 14 + (b - a) ≤ g.B) (hv : m.evalRob1 g t = (g', m', .ok v)) :
    IsLUB (leftTimes (marginAt m.data m.params k l r) (t + a) (t + a) (t + b)) v := by
  subst ha hb
  have ht : (1 : ℚ) / 10 ^ 14 = tol := by decide +kernel
  rw [ht] at hB
  exact left_ev h hab h0 hB hv

/-- C79 for `alw`, with the time measured from the beginning of the window only: a returned value is the
infimum over the window.  Missing: the same as in `C79_partial`. -/
theorem C79_alw_partial (g g' : Globals) (m m' : Monitor) (n : ℕ) (s sa : St) (I : Ival) (k : Cmp)
    (l r : Tr) (a b t v : ℚ) (h : LeftReady n m (.alw s I (.atom sa k l r)) t)
    (ha : bound m.params I.beginStr I.begin = a) (hb : bound m.params I.stopStr I.stop = b) (hab : a < b)
    (h0 : ∀ u, (u = t + a ∨ RowAt m.data u) → t + a ≤ u → u ≤ t + b →
      marginAt m.data m.params k l r u ≠ 0)
    (hB : 1 / 10 ^ 14 + (b - a) ≤ g.B) (hv : m.evalRob1 g t = (g', m', .ok v)) :
    IsGLB (leftTimes (marginAt m.data m.params k l r) (t + a) (t + a) (t + b)) v := by
  subst ha hb
  have ht : (1 : ℚ) / 10 ^ 14 = tol := by decide +kernel
  rw [ht] at hB
  exact left_alw h hab h0 hB hv

/-- `x` is negative before time 1 and positive after it. -/
def crossXD : List (List ℚ) := [[0, -1, 0], [2, 1, 0], [4, 1, 0]]

/-- `T` over the rows `D` in LEFT_TIME mode with LINEAR interpolation. -/
def leftM (T : Tr) (D : List (List ℚ)) : Monitor := { mon .LINEAR T D with sem := .LEFT_TIME }

theorem crossXD_rows : WellShaped 2 crossXD := by
  refine ⟨by decide +kernel, ?_⟩
  simp only [crossXD, List.pairwise_cons, List.mem_cons, List.not_mem_nil, or_false]
  simp
  norm_num

theorem crossXD_covers : Covers crossXD 0 3 := ⟨⟨_, 0, rfl, rfl, by norm_num⟩, ⟨_, 4, rfl, rfl, by norm_num⟩⟩

theorem crossXD_ne (u : ℚ) (h : u = 0 + 0 ∨ RowAt crossXD u) : marginAt crossXD [] .greater sx (num 0) u ≠ 0 := by
  have : u = 0 ∨ u = 2 ∨ u = 4 := by
    rcases h with rfl | ⟨row, hr, hu⟩
    · exact Or.inl (by norm_num)
    · simp only [crossXD, List.mem_cons, List.not_mem_nil, or_false] at hr
      rcases hr with rfl | rfl | rfl <;> simp only [List.head?_cons, Option.some.injEq] at hu <;> simp [← hu]
  rcases this with rfl | rfl | rfl <;> decide +kernel

theorem crossXEv_ready : LeftReady 2 (leftM (evT 0 3 (above sx 0)) crossXD) (evT 0 3 (above sx 0)) 0 where
  formula := rfl
  sem := rfl
  interpol := rfl
  names := rfl
  rows := crossXD_rows
  shape := ⟨by decide +kernel, by decide +kernel, ⟨1, rfl, by decide, by decide⟩, trivial⟩
  atoms := Or.inl ⟨trivial, trivial⟩
  start := le_rfl
  covers := by
    have e : (0 : ℚ) + reach [] (evT 0 3 (above sx 0)) = 3 := by decide +kernel
    change Covers crossXD 0 (0 + reach [] (evT 0 3 (above sx 0)))
    rw [e]; exact crossXD_covers

theorem crossXAlw_ready : LeftReady 2 (leftM (alwT 0 3 (above sx 0)) crossXD) (alwT 0 3 (above sx 0)) 0 where
  formula := rfl
  sem := rfl
  interpol := rfl
  names := rfl
  rows := crossXD_rows
  shape := ⟨by decide +kernel, by decide +kernel, ⟨1, rfl, by decide, by decide⟩, trivial⟩
  atoms := Or.inl ⟨trivial, trivial⟩
  start := le_rfl
  covers := by
    have e : (0 : ℚ) + reach [] (alwT 0 3 (above sx 0)) = 3 := by decide +kernel
    change Covers crossXD 0 (0 + reach [] (alwT 0 3 (above sx 0)))
    rw [e]; exact crossXD_covers

/-- `eval_rob` returns 2 + 1e-14 for `ev_[0,3] x > 0` at 0: `x > 0` has been true for nearly 2 when the window
closes. -/
example : IsLUB (leftTimes (marginAt crossXD [] .greater sx (num 0)) 0 0 3) (2 + 1 / 10 ^ 14) := by
  have h := C79_partial .init _ (leftM (evT 0 3 (above sx 0)) crossXD) _ 2 .init .init (lit 0 3) .greater sx (num 0)
    0 3 0 (2 + 1 / 10 ^ 14) crossXEv_ready rfl rfl (by norm_num) (fun u h _ _ => crossXD_ne u h) (by decide +kernel)
    (Prod.ext rfl (Prod.ext rfl (by decide +kernel)))
  simpa [leftM, mon] using h

/-- `eval_rob` returns -(1 + 1e-14) for `alw_[0,3] x > 0` at 0: `x > 0` has been false for nearly 1 when it
becomes true. -/
example : IsGLB (leftTimes (marginAt crossXD [] .greater sx (num 0)) 0 0 3) (-(1 + 1 / 10 ^ 14)) := by
  have h := C79_alw_partial .init _ (leftM (alwT 0 3 (above sx 0)) crossXD) _ 2 .init .init (lit 0 3) .greater sx
    (num 0) 0 3 0 (-(1 + 1 / 10 ^ 14)) crossXAlw_ready rfl rfl (by norm_num) (fun u h _ _ => crossXD_ne u h)
    (by decide +kernel) (Prod.ext rfl (Prod.ext rfl (by decide +kernel)))
  simpa [leftM, mon] using h

/-- `x` is 1 throughout. -/
def oneD : List (List ℚ) := [[0, 1, 0], [4, 1, 0]]

theorem oneD_margin (u : ℚ) (h : 0 ≤ u) : marginAt oneD [] .greater sx (num 0) u = 1 := by
  have e : trace .LINEAR oneD 1 u = 1 := by
    simp only [trace, oneD, column, List.map_cons, List.map_nil, interp]
    rw [if_neg (not_lt.2 (by simpa using h))]
    split_ifs <;> simp_all
  change trace .LINEAR oneD 1 u - 0 = 1
  rw [e]; norm_num

theorem oneD_leftReady : LeftReady 2 (leftM (evT 0 1 (above sx 0)) oneD) (evT 0 1 (above sx 0)) 3 where
  formula := rfl
  sem := rfl
  interpol := rfl
  names := rfl
  rows := by
    refine ⟨by decide +kernel, ?_⟩
    simp only [leftM, mon, oneD, List.pairwise_cons, List.mem_cons, List.not_mem_nil, or_false]
    simp
  shape := ⟨by decide +kernel, by decide +kernel, ⟨1, rfl, by decide, by decide⟩, trivial⟩
  atoms := Or.inl ⟨trivial, trivial⟩
  start := by norm_num
  covers := ⟨⟨_, 0, rfl, rfl, by norm_num⟩, ⟨_, 4, rfl, rfl, by decide +kernel⟩⟩

/-- C79 is false: what happened before the window is not counted.  `x` is 1 from time 0 on; for
`ev_[0,1] x > 0` at 3 the value is 1 + 1e-14, although `x > 0` has been true for longer than 3. -/
theorem C79_false : ¬ C79_full := by
  intro h
  obtain ⟨g', m', v, h1, h2, -⟩ := (h .init (leftM (evT 0 1 (above sx 0)) oneD) 2 .init .init (lit 0 1) .greater sx
    (num 0) 0 1 3 0 [0, 1, 0] rfl rfl (by norm_num) rfl rfl (fun u hu h1 _ => by
      rw [show (leftM (evT 0 1 (above sx 0)) oneD).data = oneD from rfl,
        show (leftM (evT 0 1 (above sx 0)) oneD).params = [] from rfl, oneD_margin u (by linarith)]
      norm_num) (by decide +kernel)).1 oneD_leftReady
  have e : (Monitor.evalRob1 .init (leftM (evT 0 1 (above sx 0)) oneD) 3).2.2 = .ok (1 + 1 / 10 ^ 14) := by
    decide +kernel
  rw [h1] at e
  simp only [Except.ok.injEq] at e
  subst e
  have hp : ∀ u, 0 ≤ u → PosAfter (marginAt oneD [] .greater sx (num 0)) u := fun u hu =>
    ⟨1, by norm_num, fun q c _ => by rw [oneD_margin q (by linarith)]; norm_num⟩
  have := h2.1 ⟨3, by norm_num, by norm_num, 0, le_rfl, by norm_num,
    fun q c _ => iff_of_true (hp q c) (hp 3 (by norm_num)), Or.inl rfl, fun _ => rfl,
    fun c => (c (hp 3 (by norm_num))).elim⟩
  norm_num at this

/-- The bounds need not agree with the value, nor bracket it: for `ev_[0,1] x > 0` over `crossXD` the value at 3
is 1 + 1e-14 and both bounds are 2 + 1e-14; at 0 the value is -1e-14 and both bounds are -(1 + 1e-14). -/
theorem C79_bounds_false :
    ((leftM (evT 0 1 (above sx 0)) crossXD).evalRob1 .init 3).2.2 = .ok (1 + 1 / 10 ^ 14) ∧
    ((leftM (evT 0 1 (above sx 0)) crossXD).evalRob1 .init 3).2.1.lowerRob = 2 + 1 / 10 ^ 14 ∧
    ((leftM (evT 0 1 (above sx 0)) crossXD).evalRob1 .init 3).2.1.upperRob = 2 + 1 / 10 ^ 14 ∧
    ((leftM (evT 0 1 (above sx 0)) crossXD).evalRob1 .init 0).2.2 = .ok (-(1 / 10 ^ 14)) ∧
    ((leftM (evT 0 1 (above sx 0)) crossXD).evalRob1 .init 0).2.1.lowerRob = -(1 + 1 / 10 ^ 14) ∧
    ((leftM (evT 0 1 (above sx 0)) crossXD).evalRob1 .init 0).2.1.upperRob = -(1 + 1 / 10 ^ 14) := by
  refine ⟨?_, ?_, ?_, ?_, ?_, ?_⟩ <;> decide +kernel

end Props
end STLRom
