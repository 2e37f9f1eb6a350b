import Verif.Props.Online
import Verif.Proofs.UntilRun

/-!
# Properties C63, C64: evaluating `until` over two comparisons, on complete and on partial traces
-/

namespace STLRom
namespace Props
open Signal Spec

/-! ## C63 `until` on a trace that covers its window -/

/-- The full claim: on a covering trace with the comparisons within `±B`, `eval_rob` returns the
robustness of `until`, and both bounds are equal to it. -/
def C63_full : Prop := ∀ (g : Globals) (m : Monitor) (n : ℕ) (st : St) (l r : Tr) (I : Ival) (a b t : ℚ),
  m.formula = some (.untl st l I r) → m.sem = .SPACE → m.ip = .LINEAR →
  m.params.lookup "" = none → WellShaped n m.data → 0 ≤ g.B →
  bound m.params I.beginStr I.begin = a → bound m.params I.stopStr I.stop = b → 0 ≤ a → a ≤ b →
  IsAtom l ∧ IsAtom r → IsFormula n m.params l ∧ IsFormula n m.params r → PlainAtoms l ∧ PlainAtoms r →
  AtomsWithinTo .LINEAR g.B m.data m.params t (t + b) l → AtomsWithinTo .LINEAR g.B m.data m.params (t + a) (t + b) r →
  0 ≤ t → (∃ row t', m.data.head? = some row ∧ row.head? = some t' ∧ t' ≤ t) →
  t + b ≤ lastTime m.data →
    ∃ g' m' v, m.evalRob1 g t = (g', m', .ok v) ∧
      rob .LINEAR m.data m.params (.untl st l I r) t = er v ∧ m'.lowerRob = v ∧ m'.upperRob = v

/-- C63 for windows of positive length: the returned value is the robustness.  The lower bound is
equal to it unless the right operand is `-B` when the window opens, the upper bound unless the
left operand is `B` at time `t` or the right one when the window opens; the bounds are then `-B`
and `B`.  Missing: those cases (`C63_bound_false`), `a = b` (undefined behaviour, `C63_false`) and
operands other than comparisons. -/
theorem C63_partial (g : Globals) (m : Monitor) (n : ℕ) (st : St) (l r : Tr) (I : Ival) (a b t : ℚ)
    (h : BegunUntil n g.B m st l I r a b t) (hc : t + b ≤ lastTime m.data) :
    ∃ g' m' v, m.evalRob1 g t = (g', m', .ok v) ∧
      rob .LINEAR m.data m.params (.untl st l I r) t = er v ∧
      ((rob .LINEAR m.data m.params r (t + a) = er (-g.B) → m'.lowerRob = -g.B) ∧
        (rob .LINEAR m.data m.params r (t + a) ≠ er (-g.B) → m'.lowerRob = v)) ∧
      ((rob .LINEAR m.data m.params l t = er g.B ∨ rob .LINEAR m.data m.params r (t + a) = er g.B →
          m'.upperRob = g.B) ∧
        (¬ (rob .LINEAR m.data m.params l t = er g.B ∨ rob .LINEAR m.data m.params r (t + a) = er g.B) →
          m'.upperRob = v)) := by
  obtain ⟨g', m', v, h1, h2, h3⟩ := evalRob_until h.formula h.sem h.interpol h.names h.rows h.big h.first
    h.atoms.1 h.atoms.2 h.shape.1 h.shape.2 h.opens h.closes rfl h.okLeft h.okRight h.withinLeft
    h.withinRight h.start h.window.1 h.window.2 h.reached h.timely
  refine ⟨g', m', v, h1, ?_, h3⟩
  rw [min_eq_left hc] at h2
  simp only [rob, h.opens, h.closes]
  exact h2

/-! ## C64 `until` on a partial trace -/

/-- The full claim: the bounds computed on the first rows bracket the robustness on every
covering trace that begins with them. -/
def C64_full : Prop := ∀ (g g' : Globals) (m m' : Monitor) (n : ℕ) (st : St) (l r : Tr) (I : Ival)
    (a b t v : ℚ) (R : List (List ℚ)),
  BegunUntil n g.B m st l I r a b t → WellShaped n (m.data ++ R) → t + b ≤ lastTime (m.data ++ R) →
  AtomsWithin .LINEAR g.B (m.data ++ R) m.params t (t + b) l →
  AtomsWithin .LINEAR g.B (m.data ++ R) m.params (t + a) (t + b) r →
  m.evalRob1 g t = (g', m', .ok v) →
    er m'.lowerRob ≤ rob .LINEAR (m.data ++ R) m.params (.untl st l I r) t ∧
    rob .LINEAR (m.data ++ R) m.params (.untl st l I r) t ≤ er m'.upperRob

theorem begunUntil_ne {n : ℕ} {B : ℚ} {m : Monitor} {st : St} {l r : Tr} {I : Ival} {a b t : ℚ}
    (h : BegunUntil n B m st l I r a b t) : m.data ≠ [] := by
  obtain ⟨row, _, h1, _⟩ := h.first
  rintro h2
  rw [h2] at h1
  cases h1

theorem atom_same {ip : Interpol} {n : ℕ} {P : Assoc ℚ} {D R : List (List ℚ)} {T : Tr} (hne : D ≠ [])
    (h : WellShaped n (D ++ R)) (hT : IsAtom T) (hF : IsFormula n P T) {t : ℚ} (ht : t ≤ lastTime D) :
    rob ip D P T t = rob ip (D ++ R) P T t := by
  refine rob_upto (n := n) (K := lastTime D)
    (fun i u hu => trace_upto (wellShaped_prefix h) h (same_prefix hne h) i hu) hF ?_
  cases T <;> first | exact hT.elim | simpa [reach] using ht

theorem atom_within_low {ip : Interpol} {B : ℚ} {D : List (List ℚ)} {P : Assoc ℚ} {T : Tr} {s e t : ℚ} (hT : IsAtom T)
    (h : AtomsWithin ip B D P s e T) (h1 : s ≤ t) (h2 : t ≤ e) : er (-B) ≤ rob ip D P T t := by
  cases T with
  | atom st k l r => exact er_le.2 (h t h1 h2).1
  | _ => exact hT.elim

theorem atom_within_up {ip : Interpol} {B : ℚ} {D : List (List ℚ)} {P : Assoc ℚ} {T : Tr} {s e t : ℚ} (hT : IsAtom T)
    (h : AtomsWithin ip B D P s e T) (h1 : s ≤ t) (h2 : t ≤ e) : rob ip D P T t ≤ er B := by
  cases T with
  | atom st k l r => exact er_le.2 (h t h1 h2).2
  | _ => exact hT.elim

/-- The lower half of C64: the lower bound is at most the robustness on every covering trace that
begins with the rows of `m`.  The evaluation returns the robustness of `until` with its window cut
at the last row.  Missing: the upper bound, which is not sound (`C64_false`); rows that end before
the window opens; operands other than comparisons. -/
theorem C64_lower_partial (g : Globals) (m : Monitor) (n : ℕ) (st : St) (l r : Tr) (I : Ival)
    (a b t : ℚ) (R : List (List ℚ)) (h : BegunUntil n g.B m st l I r a b t)
    (hw : WellShaped n (m.data ++ R))
    (hl : AtomsWithin .LINEAR g.B (m.data ++ R) m.params t (t + b) l)
    (hr : AtomsWithin .LINEAR g.B (m.data ++ R) m.params (t + a) (t + b) r) :
    ∃ g' m' v, m.evalRob1 g t = (g', m', .ok v) ∧
      ⨆ u ∈ Set.Icc (t + a) (min (t + b) (lastTime m.data)), rob .LINEAR m.data m.params r u ⊓
        ⨅ w ∈ Set.Icc t u, rob .LINEAR m.data m.params l w = er v ∧
      er m'.lowerRob ≤ rob .LINEAR (m.data ++ R) m.params (.untl st l I r) t := by
  obtain ⟨g', m', v, h1, h2, h3, _⟩ := evalRob_until h.formula h.sem h.interpol h.names h.rows h.big h.first
    h.atoms.1 h.atoms.2 h.shape.1 h.shape.2 h.opens h.closes rfl h.okLeft h.okRight h.withinLeft
    h.withinRight h.start h.window.1 h.window.2 h.reached h.timely
  refine ⟨g', m', v, h1, h2, ?_⟩
  have hne := begunUntil_ne h
  have hab := h.window
  simp only [rob, h.opens, h.closes]
  by_cases hc : rob .LINEAR m.data m.params r (t + a) = er (-g.B)
  · rw [h3.1 hc]
    refine le_iSup₂_of_le (t + a) ⟨le_rfl, by linarith⟩ (le_inf ?_ (le_iInf₂ fun w hw => ?_))
    · exact atom_within_low h.atoms.2 hr le_rfl (by linarith)
    · exact atom_within_low h.atoms.1 hl hw.1 (by linarith [hw.2])
  · rw [h3.2 hc, ← h2]
    refine iSup₂_le fun u hu => le_iSup₂_of_le u ⟨hu.1, hu.2.trans (min_le_left _ _)⟩ ?_
    have hud := hu.2.trans (min_le_right _ _)
    rw [atom_same hne hw h.atoms.2 h.shape.2 hud]
    refine inf_le_inf le_rfl (le_iInf₂ fun w hw' => (iInf₂_le w hw').trans ?_)
    rw [atom_same hne hw h.atoms.1 h.shape.1 (hw'.2.trans hud)]

/-- The upper half of C64, when the left operand has already come down to the returned value: the
upper bound is at least the robustness on every covering trace. -/
theorem C64_upper_partial (g : Globals) (m : Monitor) (n : ℕ) (st : St) (l r : Tr) (I : Ival)
    (a b t : ℚ) (R : List (List ℚ)) (h : BegunUntil n g.B m st l I r a b t)
    (hw : WellShaped n (m.data ++ R))
    (hr : AtomsWithin .LINEAR g.B (m.data ++ R) m.params (t + a) (t + b) r) :
    ∃ g' m' v, m.evalRob1 g t = (g', m', .ok v) ∧
      ((∃ w, t ≤ w ∧ w ≤ lastTime m.data ∧ rob .LINEAR m.data m.params l w ≤ er v) →
        rob .LINEAR (m.data ++ R) m.params (.untl st l I r) t ≤ er m'.upperRob) := by
  obtain ⟨g', m', v, h1, h2, _, h3⟩ := evalRob_until h.formula h.sem h.interpol h.names h.rows h.big h.first
    h.atoms.1 h.atoms.2 h.shape.1 h.shape.2 h.opens h.closes rfl h.okLeft h.okRight h.withinLeft
    h.withinRight h.start h.window.1 h.window.2 h.reached h.timely
  refine ⟨g', m', v, h1, ?_⟩
  rintro ⟨w0, k1, k2, k3⟩
  have hne := begunUntil_ne h
  simp only [rob, h.opens, h.closes]
  by_cases hc : rob .LINEAR m.data m.params l t = er g.B ∨ rob .LINEAR m.data m.params r (t + a) = er g.B
  · rw [h3.1 hc]
    exact iSup₂_le fun u hu => inf_le_left.trans (atom_within_up h.atoms.2 hr hu.1 hu.2)
  · rw [h3.2 hc]
    refine iSup₂_le fun u hu => ?_
    rcases le_or_gt u (lastTime m.data) with hud | hud
    · rw [← h2]
      refine le_iSup₂_of_le u ⟨hu.1, le_min hu.2 hud⟩ ?_
      rw [atom_same hne hw h.atoms.2 h.shape.2 hud]
      refine inf_le_inf le_rfl (le_iInf₂ fun w hw' => (iInf₂_le w hw').trans ?_)
      rw [atom_same hne hw h.atoms.1 h.shape.1 (hw'.2.trans hud)]
    · refine inf_le_right.trans ((iInf₂_le w0 ⟨k1, k2.trans hud.le⟩).trans ?_)
      rw [← atom_same hne hw h.atoms.1 h.shape.1 k2]
      exact k3

/-- With more rows the lower bound does not go down. -/
theorem C64_tighten_partial (g : Globals) (m : Monitor) (n : ℕ) (st : St) (l r : Tr) (I : Ival)
    (a b t : ℚ) (R : List (List ℚ)) (h : BegunUntil n g.B m st l I r a b t)
    (h' : BegunUntil n g.B { m with data := m.data ++ R } st l I r a b t) :
    ∃ g1 g2 m1 m2 v1 v2, m.evalRob1 g t = (g1, m1, .ok v1) ∧
      Monitor.evalRob1 g { m with data := m.data ++ R } t = (g2, m2, .ok v2) ∧
      v1 ≤ v2 ∧ m1.lowerRob ≤ m2.lowerRob := by
  obtain ⟨g1, m1, v1, h1, h2, h3, _⟩ := evalRob_until h.formula h.sem h.interpol h.names h.rows h.big h.first
    h.atoms.1 h.atoms.2 h.shape.1 h.shape.2 h.opens h.closes rfl h.okLeft h.okRight h.withinLeft
    h.withinRight h.start h.window.1 h.window.2 h.reached h.timely
  obtain ⟨g2, m2, v2, k1, k2, k3, _⟩ := evalRob_until h'.formula h'.sem h'.interpol h'.names h'.rows h'.big
    h'.first h'.atoms.1 h'.atoms.2 h'.shape.1 h'.shape.2 h'.opens h'.closes rfl h'.okLeft h'.okRight
    h'.withinLeft h'.withinRight h'.start h'.window.1 h'.window.2 h'.reached h'.timely
  have hne := begunUntil_ne h
  have hw : WellShaped n (m.data ++ R) := h'.rows
  have hd : lastTime m.data ≤ lastTime (m.data ++ R) := by
    obtain ⟨last, q1, q2⟩ := lastTime_eq hne h.rows
    have := rowTime_le_last (begunUntil_ne h') hw last
      (List.mem_append_left _ (List.mem_of_getLast? q1))
    cases last <;> simp_all [rowTime]
  have hv : v1 ≤ v2 := by
    rw [← er_le, ← h2, ← k2]
    refine iSup₂_le fun u hu =>
      le_iSup₂_of_le u ⟨hu.1, hu.2.trans (min_le_min le_rfl hd)⟩ ?_
    have hud := hu.2.trans (min_le_right _ _)
    rw [atom_same hne hw h.atoms.2 h.shape.2 hud]
    refine inf_le_inf le_rfl (le_iInf₂ fun w hw' => (iInf₂_le w hw').trans ?_)
    rw [atom_same hne hw h.atoms.1 h.shape.1 (hw'.2.trans hud)]
  refine ⟨g1, g2, m1, m2, v1, v2, h1, k1, hv, ?_⟩
  have hra := atom_same (ip := .LINEAR) hne hw h.atoms.2 h.shape.2 h.reached.le
  by_cases hc : rob .LINEAR m.data m.params r (t + a) = er (-g.B)
  · rw [h3.1 hc, k3.1 (hra ▸ hc)]
  · rw [h3.2 hc, k3.2 (fun hx => hc (hra.trans hx))]
    exact hv

/-! ### Concrete traces -/

/-- `x > 0 until_[a,b] y > 0`. -/
def xUy (a b : ℚ) : Tr := .untl .init (above sx 0) (lit a b) (above sy 0)

theorem xUy_begun {D : List (List ℚ)} {a b t t0 : ℚ} {row : List ℚ} {rest : List (List ℚ)}
    (hD : D = (t0 :: row) :: rest) (hr : WellShaped 2 D) (ht0 : t0 ≤ t) (ht : 0 ≤ t) (ha : 0 ≤ a)
    (hab : a < b) (hx : ∀ row ∈ D, |margin .greater (rowExpr [] row sx) (rowExpr [] row (num 0))| ≤ 10000)
    (hy : ∀ row ∈ D, |margin .greater (rowExpr [] row sy) (rowExpr [] row (num 0))| ≤ 10000)
    (h1 : t + a < lastTime D) (h2 : b ≤ lastTime D → t + b ≤ lastTime D) :
    BegunUntil 2 Globals.init.B (mon .LINEAR (xUy a b) D) .init (above sx 0) (lit a b) (above sy 0) a b t := by
  have hh : ∀ row, D.head? = some row → rowTime row ≤ t := by
    intro row' h
    rw [hD] at h
    simp only [List.head?_cons, Option.some.injEq] at h
    rw [← h]
    exact ht0
  have hne : D ≠ [] := by rw [hD]; simp
  refine ⟨rfl, rfl, rfl, rfl, hr, rfl, rfl, ⟨ha, hab⟩, ⟨trivial, trivial⟩,
    ⟨⟨⟨1, rfl, by decide, by decide⟩, trivial⟩, ⟨2, rfl, by decide, by decide⟩, trivial⟩,
    Or.inl ⟨trivial, trivial⟩, Or.inl ⟨trivial, trivial⟩, by decide +kernel, ?_, ?_, ht,
    ⟨_, t0, by show D.head? = _; rw [hD]; rfl, rfl, ht0⟩, h1, h2⟩
  · exact fun u h _ _ => trace_abs hr hh hne (k := .greater) (l := sx) (r := num 0)
      ⟨trivial, trivial⟩ hx u h
  · exact fun u h _ _ => trace_abs hr hh hne (k := .greater) (l := sy) (r := num 0)
      ⟨trivial, trivial⟩ hy u (le_trans (by linarith) h)

/-- `x` falls from 3 to -2 while `y` rises from -1 to 4. -/
def crossD : List (List ℚ) := [[0, 3, -1], [2, 1, 1], [3, -2, 4], [5, 0, 0]]

theorem crossD_rows : WellShaped 2 crossD := by
  refine ⟨by decide +kernel, ?_⟩
  simp only [crossD, List.pairwise_cons, List.mem_cons, List.not_mem_nil, or_false]
  simp
  norm_num

theorem cross_begun {k : ℕ} (hk : k = 3 ∨ k = 4) : BegunUntil 2 Globals.init.B
    (mon .LINEAR (xUy 1 4) (crossD.take k)) .init (above sx 0) (lit 1 4) (above sy 0) 1 4 0 := by
  have hr : WellShaped 2 (crossD.take k) :=
    wellShaped_prefix (R := crossD.drop k) (by rw [List.take_append_drop]; exact crossD_rows)
  rcases hk with rfl | rfl
  · exact xUy_begun rfl hr le_rfl le_rfl (by norm_num) (by norm_num) (by decide +kernel) (by decide +kernel)
      (by decide +kernel) (by decide +kernel)
  · exact xUy_begun rfl hr le_rfl le_rfl (by norm_num) (by norm_num) (by decide +kernel) (by decide +kernel)
      (by decide +kernel) (by decide +kernel)

theorem cross_within : AtomsWithin .LINEAR Globals.init.B crossD [] 0 (0 + 4) (above sx 0) ∧
    AtomsWithin .LINEAR Globals.init.B crossD [] (0 + 1) (0 + 4) (above sy 0) := by
  have hh : ∀ row, crossD.head? = some row → rowTime row ≤ 0 := by
    intro row h
    simp only [crossD, List.head?_cons, Option.some.injEq] at h
    subst h
    decide +kernel
  constructor
  · exact fun u h _ => trace_abs crossD_rows hh (by decide) (k := .greater) (l := sx) (r := num 0)
      ⟨trivial, trivial⟩ (by decide +kernel) u h
  · exact fun u h _ => trace_abs crossD_rows hh (by decide) (k := .greater) (l := sy) (r := num 0)
      ⟨trivial, trivial⟩ (by decide +kernel) u (le_trans (by norm_num) h)

example : rob .LINEAR crossD [] (xUy 1 4) 0 = er 1 := by
  obtain ⟨g', m', v, h1, h2, _⟩ := C63_partial .init (mon .LINEAR (xUy 1 4) crossD) 2 .init (above sx 0)
    (above sy 0) (lit 1 4) 1 4 0 (cross_begun (Or.inr rfl)) (by decide +kernel)
  have h3 : ((mon .LINEAR (xUy 1 4) crossD).evalRob1 .init 0).2.2 = .ok 1 := by decide +kernel
  rw [h1] at h3
  obtain rfl := Except.ok.inj h3
  exact h2

example : ∃ g' m' v, (mon .LINEAR (xUy 1 4) (crossD.take 3)).evalRob1 .init 0 = (g', m', .ok v) ∧
    er m'.lowerRob ≤ rob .LINEAR crossD [] (xUy 1 4) 0 := by
  obtain ⟨g', m', v, h1, _, h2⟩ := C64_lower_partial .init (mon .LINEAR (xUy 1 4) (crossD.take 3)) 2 .init
    (above sx 0) (above sy 0) (lit 1 4) 1 4 0 (crossD.drop 3) (cross_begun (Or.inl rfl)) crossD_rows
    cross_within.1 cross_within.2
  exact ⟨g', m', v, h1, h2⟩

/-- The left operand is -2 at time 3, below the returned value 1. -/
example : ∃ g' m' v, (mon .LINEAR (xUy 1 4) (crossD.take 3)).evalRob1 .init 0 = (g', m', .ok v) ∧
    rob .LINEAR crossD [] (xUy 1 4) 0 ≤ er m'.upperRob := by
  obtain ⟨g', m', v, h1, h2⟩ := C64_upper_partial .init (mon .LINEAR (xUy 1 4) (crossD.take 3)) 2 .init
    (above sx 0) (above sy 0) (lit 1 4) 1 4 0 (crossD.drop 3) (cross_begun (Or.inl rfl)) crossD_rows
    cross_within.2
  refine ⟨g', m', v, h1, h2 ⟨3, by norm_num, by decide +kernel, ?_⟩⟩
  have h3 : ((mon .LINEAR (xUy 1 4) (crossD.take 3)).evalRob1 .init 0).2.2 = .ok 1 := by decide +kernel
  rw [h1] at h3
  obtain rfl := Except.ok.inj h3
  refine er_le.2 ?_
  decide +kernel

example : ∃ g1 g2 m1 m2 v1 v2, (mon .LINEAR (xUy 1 4) (crossD.take 3)).evalRob1 .init 0 = (g1, m1, .ok v1) ∧
    (mon .LINEAR (xUy 1 4) crossD).evalRob1 .init 0 = (g2, m2, .ok v2) ∧ v1 ≤ v2 ∧
    m1.lowerRob ≤ m2.lowerRob :=
  C64_tighten_partial .init (mon .LINEAR (xUy 1 4) (crossD.take 3)) 2 .init
    (above sx 0) (above sy 0) (lit 1 4) 1 4 0 (crossD.drop 3) (cross_begun (Or.inl rfl))
    (cross_begun (Or.inr rfl))

/-- `x` is 5 throughout; `y` is -1 until time 2 and 4 from time 3 on. -/
def lateD : List (List ℚ) := [[0, 5, -1], [2, 5, -1], [3, 5, 4], [12, 5, 4]]

theorem lateD_rows : WellShaped 2 lateD := by
  refine ⟨by decide +kernel, ?_⟩
  simp only [lateD, List.pairwise_cons, List.mem_cons, List.not_mem_nil, or_false]
  simp
  norm_num

/-- C64 is false: with the rows up to time 2 the upper bound of `x > 0 until_[0,10] y > 0` is -1;
on the whole trace the robustness is 4. -/
theorem C64_false : ¬ C64_full := by
  intro h
  have hh : ∀ row, lateD.head? = some row → rowTime row ≤ 0 := by
    intro row h
    simp only [lateD, List.head?_cons, Option.some.injEq] at h
    subst h
    decide +kernel
  have h1 := (h .init ((mon .LINEAR (xUy 0 10) (lateD.take 2)).evalRob1 .init 0).1
    (mon .LINEAR (xUy 0 10) (lateD.take 2)) ((mon .LINEAR (xUy 0 10) (lateD.take 2)).evalRob1 .init 0).2.1 2
    .init (above sx 0) (above sy 0) (lit 0 10) 0 10 0 (-1) (lateD.drop 2)
    (xUy_begun rfl (wellShaped_prefix (R := lateD.drop 2) (by rw [List.take_append_drop]; exact lateD_rows))
      le_rfl le_rfl (by norm_num) (by norm_num) (by decide +kernel) (by decide +kernel)
      (by decide +kernel) (by decide +kernel)) lateD_rows (by decide +kernel)
    (fun u h _ => trace_abs lateD_rows hh (by decide) (k := .greater) (l := sx) (r := num 0)
      ⟨trivial, trivial⟩ (by decide +kernel) u h)
    (fun u h _ => trace_abs lateD_rows hh (by decide) (k := .greater) (l := sy) (r := num 0)
      ⟨trivial, trivial⟩ (by decide +kernel) u (le_trans (by norm_num) h))
    (Prod.ext rfl (Prod.ext rfl (by decide +kernel)))).2
  rw [show ((mon .LINEAR (xUy 0 10) (lateD.take 2)).evalRob1 .init 0).2.1.upperRob = -1 from by
    decide +kernel] at h1
  obtain ⟨g', m', v, k1, k2, _⟩ := C63_partial .init (mon .LINEAR (xUy 0 10) lateD) 2 .init (above sx 0)
    (above sy 0) (lit 0 10) 0 10 0
    (xUy_begun rfl lateD_rows le_rfl le_rfl (by norm_num) (by norm_num) (by decide +kernel)
      (by decide +kernel) (by decide +kernel) (by decide +kernel)) (by decide +kernel)
  have k3 : ((mon .LINEAR (xUy 0 10) lateD).evalRob1 .init 0).2.2 = .ok 4 := by decide +kernel
  rw [k1] at k3
  obtain rfl := Except.ok.inj k3
  rw [show rob .LINEAR ((mon .LINEAR (xUy 0 10) (lateD.take 2)).data ++ lateD.drop 2)
    (mon .LINEAR (xUy 0 10) (lateD.take 2)).params (.untl .init (above sx 0) (lit 0 10) (above sy 0)) 0 = er 4
    from k2, er_le] at h1
  norm_num at h1

/-- C63 is false: with a window of length 0 the evaluation is undefined behaviour. -/
theorem C63_false : ¬ C63_full := by
  intro h
  have hb := cross_begun (Or.inr rfl)
  obtain ⟨g', m', v, h1, _⟩ := h .init (mon .LINEAR (xUy 1 1) crossD) 2 .init (above sx 0) (above sy 0)
    (lit 1 1) 1 1 0 rfl rfl rfl rfl crossD_rows (by decide +kernel) rfl rfl (by norm_num) le_rfl
    ⟨trivial, trivial⟩ hb.shape ⟨⟨trivial, trivial⟩, trivial, trivial⟩
    (fun u h _ k => hb.withinLeft u h (by linarith) k) (fun u h _ k => hb.withinRight u h (by linarith) k)
    le_rfl ⟨_, 0, rfl, rfl, le_rfl⟩ (by decide +kernel)
  have h2 : ((mon .LINEAR (xUy 1 1) crossD).evalRob1 .init 0).2.2 = .error .ub := by decide +kernel
  rw [h1] at h2
  cases h2

/-- The returned value and the two bounds. -/
def results (m : Monitor) (t : ℚ) : M ℚ × ℚ × ℚ :=
  ((m.evalRob1 .init t).2.2, (m.evalRob1 .init t).2.1.lowerRob, (m.evalRob1 .init t).2.1.upperRob)

/-- Below `ev` the upper bound of an until takes complete windows only: with the rows up to time 2
`ev_[0,1] (x > 0 until_[0,2] y > 0)` has no upper bound below `B`, and the robustness on the whole
trace, 4, respects it. -/
theorem C64_below_ev :
    results (mon .LINEAR (evT 0 1 (xUy 0 2)) (lateD.take 2)) 0 = (.ok (-1), -1, Globals.init.B) ∧
    results (mon .LINEAR (evT 0 1 (xUy 0 2)) lateD) 0 = (.ok 4, 4, 4) := by decide +kernel

/-- Also for longer windows: on complete traces where an operand begins at `∓B` the bounds do not
meet. -/
theorem C63_bound_false :
    results (mon .LINEAR (xUy 0 2) [[0, 5, -10000], [1, 5, 4], [2, 5, 3], [4, 5, -1]]) 0 = (.ok 4, -10000, 4) ∧
    results (mon .LINEAR (xUy 0 2) [[0, 5, 10000], [1, 5, 4], [2, 5, 3], [4, 5, -1]]) 0 = (.ok 5, 5, 10000) := by
  constructor <;> decide +kernel

end Props
end STLRom
