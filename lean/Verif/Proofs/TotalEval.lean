import Verif.Proofs.TotalRun
import Verif.Proofs.LowUp

/-!
# Evaluating formulas without until never faults (continued): expressions, atoms, formulas
-/

namespace STLRom
open Signal Spec

/-! ## Appending to an empty signal -/

theorem appendSamples_later (ip : Interpol) : ∀ (l : List Sample) {x : Signal}, x.samples ≠ [] →
    (∀ p ∈ x.samples, p.time ≤ x.endTime) → (∀ p ∈ l, x.endTime < p.time) → SInc l →
    ∃ z, appendSamples ip x l = .ok z ∧ times z.samples = times x.samples ++ times l ∧
      z.beginTime = x.beginTime ∧ (∀ p ∈ z.samples, p.time ≤ z.endTime) ∧
      (z.endTime = x.endTime ∨ z.endTime ∈ times l)
  | [], x, _, hle, _, _ => ⟨x, rfl, by simp, rfl, hle, Or.inl rfl⟩
  | p :: l, x, hx, hle, hlt, hs => by
    obtain ⟨y, a1, a2, a3, a4⟩ := appendSample_later ip p.value p.derivative hx hle (hlt p (by simp))
    have hy : ∀ q ∈ y.samples, q.time ≤ y.endTime := by
      intro q hq
      have : q.time ∈ times y.samples := List.mem_map_of_mem hq
      rw [a2] at this
      rw [a4]
      rcases List.mem_append.1 this with h | h
      · obtain ⟨r, hr, hr'⟩ := List.mem_map.1 h
        rw [← hr']
        exact (hle r hr).trans (hlt p (by simp)).le
      · rw [List.mem_singleton.1 h]
    obtain ⟨z, b1, b2, b3, b4, b5⟩ := appendSamples_later ip l (x := y) (by
        intro h; rw [h] at a2; simp at a2) hy (by
        intro q hq; rw [a4]; exact (List.pairwise_cons.1 hs).1 q hq) (List.pairwise_cons.1 hs).2
    refine ⟨z, by simp only [appendSamples, a1, bind, Except.bind, b1], ?_, b3.trans a3, b4, Or.inr ?_⟩
    · rw [b2, a2]
      simp
    · rcases b5 with b5 | b5
      · rw [b5, a4]; simp
      · exact List.mem_cons_of_mem _ b5

theorem appendSamples_any (ip : Interpol) {l : List Sample} (hl : l ≠ []) (hs : SInc l) :
    ∃ z, appendSamples ip .empty l = .ok z ∧ times z.samples = times l ∧
      some z.beginTime = (times l).head? ∧ (∀ p ∈ z.samples, p.time ≤ z.endTime) ∧
      z.endTime ∈ times l := by
  obtain ⟨p, l, rfl⟩ := List.exists_cons_of_ne_nil hl
  obtain ⟨d, hd⟩ : ∃ d, appendSample ip .empty p.time p.value p.derivative =
      .ok ⟨[⟨p.time, p.value, d⟩], p.time, p.time⟩ := by
    cases ip <;> exact ⟨_, by simp [appendSample, Signal.empty]; rfl⟩
  obtain ⟨z, b1, b2, b3, b4, b5⟩ := appendSamples_later ip l (x := ⟨[⟨p.time, p.value, d⟩], p.time, p.time⟩)
    (by simp) (by simp) (fun q hq => (List.pairwise_cons.1 hs).1 q hq) (List.pairwise_cons.1 hs).2
  exact ⟨z, by simp only [appendSamples, hd, bind, Except.bind, b1], by rw [b2]; rfl, by rw [b3]; rfl, b4, by
    rcases b5 with b5 | b5
    · rw [b5]; simp
    · exact List.mem_cons_of_mem _ b5⟩

section
variable {env : Env} {n : ℕ} {S E : ℚ}

/-! ## Expressions -/

/-- An operator node of an expression after a run. -/
structure OpOk (D : List (List ℚ)) (S E : ℚ) (z : Signal) : Prop where
  b : z.beginTime = leafBegin D S E
  t : times z.samples = leafTimes D S E
  le : ∀ t ∈ leafTimes D S E, t ≤ z.endTime
  hi : z.endTime ≤ leafEnd D E

/-- An expression after a run. -/
def ETot (D : List (List ℚ)) (S E : ℚ) : Tr → Prop
  | .sig s _ _ td | .const s _ _ td => s.start = S ∧ s.stop = E ∧ LeafOk D S E s.z td
  | .abs s c => OpOk D S E s.z ∧ ETot D S E c
  | .plus s l r | .minus s l r | .mult s l r => OpOk D S E s.z ∧ ETot D S E l ∧ ETot D S E r
  | _ => False

theorem ETot.st (hD : WellShaped n env.data) (hne : env.data ≠ []) (hE : 0 ≤ E) {T : Tr}
    (h : ETot env.data S E T) : OpOk env.data S E T.st.z := by
  have leaf : ∀ {z : Signal} {td : Option ℕ}, LeafOk env.data S E z td → OpOk env.data S E z :=
    fun h => ⟨h.b, h.t, fun t ht => by rw [h.e]; exact (leafTimes_grid hD.inc hne hE).le t ht,
      h.e.le⟩
  cases T <;> first | exact h.1 | exact leaf h.2.2 | exact h.elim

theorem OpOk.hd (hD : WellShaped n env.data) (hne : env.data ≠ []) (hE : 0 ≤ E) {z : Signal}
    (h : OpOk env.data S E z) : Hd z := by
  have hh := (leafTimes_grid (S := S) hD.inc hne hE).head
  rw [← h.t] at hh
  cases hz : z.samples with
  | nil => rw [hz] at hh; simp at hh
  | cons p l =>
    rw [hz] at hh
    exact ⟨p, l, hz, by rw [h.b]; simpa using hh⟩

theorem op_any (hD : WellShaped n env.data) (hne : env.data ≠ []) (hE : 0 ≤ E) (ip : Interpol)
    {l : List Sample} (tl : times l = leafTimes env.data S E) :
    ∃ z, appendSamples ip .empty l = .ok z ∧ OpOk env.data S E z := by
  have hG := leafTimes_grid (S := S) hD.inc hne hE
  obtain ⟨z, a1, a2, a3, a4, a5⟩ := appendSamples_any ip (l := l) (by
    intro h; have := hG.head; rw [← tl, h] at this; simp at this)
    (sinc_of_times (by rw [tl]; exact hG.inc))
  refine ⟨z, a1, ?_, a2.trans tl, fun t ht => ?_, hG.le _ (by rw [← tl]; exact a5)⟩
  · rw [tl, hG.head] at a3
    exact Option.some.inj a3
  · rw [← tl, ← a2] at ht
    obtain ⟨p, hp, rfl⟩ := List.mem_map.1 ht
    exact a4 p hp

theorem op_any_again (hD : WellShaped n env.data) (hne : env.data ≠ []) (hE : 0 ≤ E) (ip : Interpol)
    {z : Signal} (hz : OpOk env.data S E z)
    {l : List Sample} (tl : times l = leafTimes env.data S E) : appendSamples ip z l = .ok z :=
  appendSamples_skip _ (hz.hd hD hne hE).ne _ fun p hp => hz.le _ (by
    rw [← tl]; exact List.mem_map_of_mem hp)

/-- Running an expression: the first time, and again. -/
theorem expr_any (hD : WellShaped n env.data) (hne : env.data ≠ []) (hE : 0 ≤ E) (T : Tr)
    (he : IsExpr n T) {P : Assoc ℚ} (ha : Fresh P S E T ∨ ETot env.data S E T) :
    ∃ T' r, Tr.computeRob env T = .ok (T', r) ∧ ETot env.data S E T' := by
  have hcond : ¬ (env.data = [] ∧ 0 ≤ E) := fun h => hne h.1
  have hrows : ∀ k, ∀ r ∈ env.data.drop k, r.length = n + 1 := fun k r hr =>
    hD.1 r (List.mem_of_mem_drop hr)
  have bin : ∀ (op : ℚ → ℚ → ℚ) (s : St) (l r : Tr), OpOk env.data S E l.st.z → OpOk env.data S E r.st.z →
      (s.z = .empty ∨ OpOk env.data S E s.z) →
      ∃ z p, Tr.binLoop env.ip op s.z l.st.z.samples r.st.z.samples = .ok z ∧ z.front = .ok p ∧
        OpOk env.data S E z := by
    intro op s l r h1 h2 hs
    have tt : times (comb (opS op) l.st.z.samples r.st.z.samples) = leafTimes env.data S E := by
      rw [comb_times (opS_time op) (h1.t.trans h2.t.symm), h1.t]
    rw [binLoop_eq _ _ _ _ _ (h1.t.trans h2.t.symm)]
    rcases hs with hs | hs
    · rw [hs]
      obtain ⟨z, a1, a2⟩ := op_any hD hne hE env.ip tt
      obtain ⟨p, hp⟩ := front_ok (a2.hd hD hne hE).ne
      exact ⟨z, p, a1, hp, a2⟩
    · obtain ⟨p, hp⟩ := front_ok (hs.hd hD hne hE).ne
      exact ⟨s.z, p, op_any_again hD hne hE env.ip hs tt, hp, hs⟩
  induction T with
  | sig s v m td =>
    obtain ⟨i, hi, hi0, hin⟩ := he
    obtain ⟨j, rfl⟩ : ∃ j, i = j + 1 := ⟨i - 1, by omega⟩
    have key : ∃ k z1 k' t w, td = some k ∧ s.start = S ∧ s.stop = E ∧
        Tr.readLoop env.ip (fun r => r.getD (j + 1) 0) E (env.data.drop k) s.z k 0 0 = .ok (z1, k', t, w) ∧
        ∃ z', Tr.leafTrim S E z1 t w = .ok z' ∧ LeafOk env.data S E z' (some k') := by
      rcases ha with ⟨⟨f1, f2, f3, _, _⟩, rfl⟩ | ⟨f1, f2, f3⟩
      · obtain ⟨z1, k', t, w, a1, a2⟩ := leaf_first_any (S := S) env.ip (fun r => r.getD (j + 1) 0)
          hD.inc hne hE
        exact ⟨0, z1, k', t, w, rfl, f1, f2, by rw [f3]; exact a1, a2 w⟩
      · obtain ⟨k, rfl, _⟩ := f3.td
        obtain ⟨z1, k', t, w, a1, a2⟩ := leaf_again_any env.ip (fun r => r.getD (j + 1) 0) hD.inc hne hE f3
        exact ⟨k, z1, k', t, w, rfl, f1, f2, a1, a2 w⟩
    obtain ⟨k, z1, k', t, w, rfl, f1, f2, a1, z', a2, a3⟩ := key
    obtain ⟨p, hp⟩ := front_ok (a3.ne hD.inc hne hE)
    refine ⟨.sig { s with z := z' } v m (some k'), p.value, ?_, f1, f2, a3⟩
    simp only [Tr.computeRob, Tr.sigRob, hi, Option.getD_some, f1, f2, if_neg hcond]
    rw [Tr.sigRead_eq _ _ n _ hin _ _ _ _ _ (hrows k), a1]
    simp only [bind, Except.bind, a2, hp]
  | const s q v td =>
    have key : ∃ k z1 k' t w, td = some k ∧ s.start = S ∧ s.stop = E ∧
        Tr.readLoop env.ip (fun _ => Tr.constValue env.params q v) E (env.data.drop k) s.z k 0 0 =
          .ok (z1, k', t, w) ∧
        ∃ z', Tr.leafTrim S E z1 t (Tr.constValue env.params q v) = .ok z' ∧
          LeafOk env.data S E z' (some k') := by
      rcases ha with ⟨⟨f1, f2, f3, _, _⟩, rfl⟩ | ⟨f1, f2, f3⟩
      · obtain ⟨z1, k', t, w, a1, a2⟩ := leaf_first_any (S := S) env.ip
          (fun _ => Tr.constValue env.params q v) hD.inc hne hE
        exact ⟨0, z1, k', t, w, rfl, f1, f2, by rw [f3]; exact a1, a2 _⟩
      · obtain ⟨k, rfl, _⟩ := f3.td
        obtain ⟨z1, k', t, w, a1, a2⟩ := leaf_again_any env.ip (fun _ => Tr.constValue env.params q v)
          hD.inc hne hE f3
        exact ⟨k, z1, k', t, w, rfl, f1, f2, a1, a2 _⟩
    obtain ⟨k, z1, k', t, w, rfl, f1, f2, a1, z', a2, a3⟩ := key
    refine ⟨.const { s with z := z' } q (Tr.constValue env.params q v) (some k'), Tr.constValue env.params q v,
      ?_, f1, f2, a3⟩
    simp only [Tr.computeRob, Tr.constRob, f1, f2, if_neg hcond]
    rw [Tr.constRead_eq _ n _ _ _ _ _ _ 0 (hrows k), a1]
    simp only [bind, Except.bind, Except.map, a2]
  | abs s c ih =>
    obtain ⟨c', r, a1, a2⟩ := ih he (ha.imp (fun h => h.2) (fun h => h.2))
    have a3 := a2.st hD hne hE
    obtain ⟨z, p, b1, b2, b3⟩ := bin (fun a _ => |a|) s c' c' a3 a3
      (ha.imp (fun h => h.1.2.2.1) (fun h => h.1))
    refine ⟨.abs { s with z := z } c', p.value, ?_, b3, a2⟩
    rw [binLoop_eq _ _ _ _ _ rfl, ← absLoop_eq] at b1
    simp only [Tr.computeRob, a1, bind, Except.bind, b1, b2]
  | plus s l r ih1 ih2 =>
    obtain ⟨l', v1, a1, a2⟩ := ih1 he.1 (ha.imp (fun h => h.2.1) (fun h => h.2.1))
    obtain ⟨r', v2, c1, c2⟩ := ih2 he.2 (ha.imp (fun h => h.2.2) (fun h => h.2.2))
    obtain ⟨z, p, b1, b2, b3⟩ := bin (· + ·) s l' r' (a2.st hD hne hE) (c2.st hD hne hE)
      (ha.imp (fun h => h.1.2.2.1) (fun h => h.1))
    refine ⟨.plus { s with z := z } l' r', p.value, ?_, b3, a2, c2⟩
    simp only [Tr.computeRob, a1, c1, bind, Except.bind, b1, b2]
  | minus s l r ih1 ih2 =>
    obtain ⟨l', v1, a1, a2⟩ := ih1 he.1 (ha.imp (fun h => h.2.1) (fun h => h.2.1))
    obtain ⟨r', v2, c1, c2⟩ := ih2 he.2 (ha.imp (fun h => h.2.2) (fun h => h.2.2))
    obtain ⟨z, p, b1, b2, b3⟩ := bin (· - ·) s l' r' (a2.st hD hne hE) (c2.st hD hne hE)
      (ha.imp (fun h => h.1.2.2.1) (fun h => h.1))
    refine ⟨.minus { s with z := z } l' r', p.value, ?_, b3, a2, c2⟩
    simp only [Tr.computeRob, a1, c1, bind, Except.bind, b1, b2]
  | mult s l r ih1 ih2 =>
    obtain ⟨l', v1, a1, a2⟩ := ih1 he.1 (ha.imp (fun h => h.2.1) (fun h => h.2.1))
    obtain ⟨r', v2, c1, c2⟩ := ih2 he.2 (ha.imp (fun h => h.2.2) (fun h => h.2.2))
    obtain ⟨z, p, b1, b2, b3⟩ := bin (· * ·) s l' r' (a2.st hD hne hE) (c2.st hD hne hE)
      (ha.imp (fun h => h.1.2.2.1) (fun h => h.1))
    refine ⟨.mult { s with z := z } l' r', p.value, ?_, b3, a2, c2⟩
    simp only [Tr.computeRob, a1, c1, bind, Except.bind, b1, b2]
  | _ => exact he.elim

/-! ## Formulas -/

/-- A node of a formula after the first run. -/
def StAny (S E : ℚ) (s : St) : Prop :=
  s.start = S ∧ s.stop = E ∧ s.zlow = .empty ∧ s.zup = .empty ∧ Hd s.z

/-- A formula after the first run. -/
def TOk (D : List (List ℚ)) (P : Assoc ℚ) : ℚ → ℚ → Tr → Prop
  | S, E, .atom s _ l r => StAny S E s ∧ (∀ t ∈ leafTimes D S E, t ≤ s.z.endTime) ∧
    ETot D S E l ∧ ETot D S E r
  | S, E, .not s c => StAny S E s ∧ TOk D P S E c
  | S, E, .and s l r | S, E, .or s l r | S, E, .implies s l r => StAny S E s ∧ TOk D P S E l ∧ TOk D P S E r
  | S, E, .ev s I c | S, E, .alw s I c => StAny S E s ∧ 0 ≤ Tr.ivA P I ∧ 0 ≤ Tr.ivB P I ∧
    TOk D P (S + Tr.ivA P I) (E + Tr.ivB P I) c
  | _, _, _ => False

theorem TOk.st {D : List (List ℚ)} {P : Assoc ℚ} {T : Tr} (h : TOk D P S E T) : StAny S E T.st := by
  cases T <;> first | exact h.1 | exact h.elim

theorem TOk.setZ {D : List (List ℚ)} {P : Assoc ℚ} {T : Tr} {z : Signal} (h : TOk D P S E T) (hz : Hd z)
    (he : T.st.z.endTime ≤ z.endTime) : TOk D P S E (Tr.setZ z T) := by
  have st : StAny S E { T.st with z := z } := ⟨h.st.1, h.st.2.1, h.st.2.2.1, h.st.2.2.2.1, hz⟩
  cases T with
  | atom => exact ⟨st, fun t ht => (h.2.1 t ht).trans he, h.2.2⟩
  | not | and | or | implies | ev | alw => exact ⟨st, h.2⟩
  | _ => exact h.elim

theorem atom_any (hD : WellShaped n env.data) (hsem : env.sem = .SPACE) (hne : env.data ≠ []) (hE : 0 ≤ E)
    {s : St} {k : Cmp} {l r : Tr} (he : IsExpr n l ∧ IsExpr n r) {P Q : Assoc ℚ}
    (ha : Fresh P S E (.atom s k l r) ∨ TOk env.data Q S E (.atom s k l r)) :
    ∃ z l' r' v, Tr.computeRob env (.atom s k l r) = .ok (.atom { s with z := z } k l' r', v) ∧
      TOk env.data Q S E (.atom { s with z := z } k l' r') := by
  obtain ⟨l', v1, a1, a2⟩ := expr_any hD hne hE l he.1 (ha.imp (fun h => h.2.1) (fun h => h.2.2.1))
  obtain ⟨r', v2, b1, b2⟩ := expr_any hD hne hE r he.2 (ha.imp (fun h => h.2.2) (fun h => h.2.2.2))
  have a3 := a2.st hD hne hE
  have b3 := b2.st hD hne hE
  have tt : times (comb (atomS k) l'.st.z.samples r'.st.z.samples) = leafTimes env.data S E := by
    rw [comb_times (atomS_time k) (a3.t.trans b3.t.symm), a3.t]
  obtain ⟨z, c1, c2⟩ : ∃ z, appendSamples env.ip s.z (comb (atomS k) l'.st.z.samples r'.st.z.samples) = .ok z ∧
      Hd z := by
    rcases ha with ha | ha
    · rw [ha.1.2.2.1]
      obtain ⟨z, c1, c2⟩ := op_any hD hne hE env.ip tt
      exact ⟨z, c1, c2.hd hD hne hE⟩
    · exact ⟨s.z, appendSamples_skip _ ha.1.2.2.2.2.ne _ fun p hp => ha.2.1 _ (by
        rw [← tt]; exact List.mem_map_of_mem hp), ha.1.2.2.2.2⟩
  have hz : Tr.atomRob env k s.z l'.st.z r'.st.z = .ok { z with endTime := l'.st.z.endTime } := by
    unfold Tr.atomRob
    rw [atomLoop_eq, c1, hsem]
    rfl
  have hd : Hd { z with endTime := l'.st.z.endTime } := c2
  obtain ⟨p, hp⟩ := front_ok hd.ne
  have st : s.start = S ∧ s.stop = E ∧ s.zlow = .empty ∧ s.zup = .empty := by
    rcases ha with ha | ha
    · exact ⟨ha.1.1, ha.1.2.1, ha.1.2.2.2⟩
    · exact ⟨ha.1.1, ha.1.2.1, ha.1.2.2.1, ha.1.2.2.2.1⟩
  exact ⟨{ z with endTime := l'.st.z.endTime }, l', r', p.value,
    by simp only [Tr.computeRob, a1, b1, bind, Except.bind, hz, hp],
    ⟨st.1, st.2.1, st.2.2.1, st.2.2.2, hd⟩, a3.le, a2, b2⟩

/-- `compute_robustness` of a formula without until returns. -/
theorem rob_any (hD : WellShaped n env.data) (hsem : env.sem = .SPACE) (hne : env.data ≠ []) (T : Tr) :
    ∀ {S E : ℚ}, 0 ≤ E → IsFormula n env.params T → Fresh env.params S E T →
    ∃ T' v, Tr.computeRob env T = .ok (T', v) ∧ TOk env.data env.params S E T' := by
  have st : ∀ {S E : ℚ} {s : St} {z : Signal}, FreshSt S E s → Hd z → StAny S E { s with z := z } :=
    fun h hz => ⟨h.1, h.2.1, h.2.2.2.1, h.2.2.2.2, hz⟩
  induction T with
  | atom s k l r =>
    intro S E hE hF hf
    obtain ⟨z, l', r', v, h1, h2⟩ := atom_any hD hsem hne hE hF (Or.inl hf)
    exact ⟨_, _, h1, h2⟩
  | not s c ih =>
    intro S E hE hF hf
    obtain ⟨c', v, a1, a2⟩ := ih hE hF hf.2
    have hz := Hd_not a2.st.2.2.2.2
    obtain ⟨p, hp⟩ := front_ok hz.ne
    exact ⟨.not { s with z := computeNot c'.st.z } c', p.value,
      by simp only [Tr.computeRob, a1, bind, Except.bind, hp], st hf.1 hz, a2⟩
  | and s l r ih1 ih2 =>
    intro S E hE hF hf
    obtain ⟨l', v, a1, a2⟩ := ih1 hE hF.1 hf.2.1
    obtain ⟨r', w, b1, b2⟩ := ih2 hE hF.2 hf.2.2
    obtain ⟨z, c1, c2, _⟩ := computeAndM_total
      (x := { l'.st.z with endTime := max l'.st.z.endTime r'.st.z.endTime })
      (y := { r'.st.z with endTime := max l'.st.z.endTime r'.st.z.endTime }) a2.st.2.2.2.2 b2.st.2.2.2.2
    obtain ⟨p, hp⟩ := front_ok c2.ne
    exact ⟨.and { s with z := z } l' r', p.value,
      by simp only [Tr.computeRob, a1, b1, bind, Except.bind, Tr.andRob, c1, hp], st hf.1 c2, a2, b2⟩
  | or s l r ih1 ih2 =>
    intro S E hE hF hf
    obtain ⟨l', v, a1, a2⟩ := ih1 hE hF.1 hf.2.1
    obtain ⟨r', w, b1, b2⟩ := ih2 hE hF.2 hf.2.2
    obtain ⟨z, c1, c2, _⟩ := computeOrM_total
      (x := { l'.st.z with endTime := max l'.st.z.endTime r'.st.z.endTime })
      (y := { r'.st.z with endTime := max l'.st.z.endTime r'.st.z.endTime }) a2.st.2.2.2.2 b2.st.2.2.2.2
    obtain ⟨p, hp⟩ := front_ok c2.ne
    exact ⟨.or { s with z := z } l' r', p.value,
      by simp only [Tr.computeRob, a1, b1, bind, Except.bind, Tr.orRob, c1, hp], st hf.1 c2, a2, b2⟩
  | implies s l r ih1 ih2 =>
    intro S E hE hF hf
    obtain ⟨l', v, a1, a2⟩ := ih1 hE hF.1 hf.2.1
    obtain ⟨r', w, b1, b2⟩ := ih2 hE hF.2 hf.2.2
    obtain ⟨z, c1, c2, _⟩ := computeOrM_total (Hd_not a2.st.2.2.2.2) b2.st.2.2.2.2
    obtain ⟨p, hp⟩ := front_ok c2.ne
    exact ⟨.implies { s with z := z } l' r', p.value,
      by simp only [Tr.computeRob, a1, b1, bind, Except.bind, computeImpliesM, c1, hp], st hf.1 c2, a2, b2⟩
  | ev s I c ih =>
    intro S E hE hF hf
    have ha : 0 ≤ Tr.ivA env.params I := by rw [ivA_eq]; exact hF.1
    have hab : Tr.ivA env.params I ≤ Tr.ivB env.params I := by rw [ivA_eq, ivB_eq]; exact hF.2.1
    have hb := ha.trans hab
    obtain ⟨c', v, a1, a2⟩ := ih (S := S + Tr.ivA env.params I) (E := E + Tr.ivB env.params I)
      (by linarith) hF.2.2 (by rw [ivA_eq, ivB_eq]; exact hf.2)
    obtain ⟨z, b1, b2, b3, b4⟩ := computeTimedEventually_total env.B s.z (b := Tr.ivB env.params I)
      a2.st.2.2.2.2 ha
    obtain ⟨zc, c1, c2, c3, c4⟩ := resize_hd (x := c'.st.z)
      (s := min z.endTime s.stop - Tr.ivB env.params I) (t := c'.st.z.endTime) 0 a2.st.2.2.2.2.ne (by
        have := min_le_left z.endTime s.stop
        have := tol_pos
        linarith)
    obtain ⟨z', d1, d2, _⟩ := resize_hd (x := z) (s := s.start) (t := max s.start (min z.endTime s.stop)) 0
      b2.ne (by
        have := le_max_left s.start (min z.endTime s.stop)
        have := tol_pos
        linarith)
    obtain ⟨p, hp⟩ := front_ok d2.ne
    refine ⟨.ev { s with z := z' } I (Tr.setZ zc c'), p.value, ?_, st hf.1 d2, ha, hb, ?_⟩
    · simp only [Tr.computeRob, a1, bind, Except.bind, Tr.evRob, b1, c1, d1, hp]
    · refine a2.setZ c2 ?_
      rw [c4]; split
      · rename_i h; exact h.le
      · exact le_rfl
  | alw s I c ih =>
    intro S E hE hF hf
    have ha : 0 ≤ Tr.ivA env.params I := by rw [ivA_eq]; exact hF.1
    have hab : Tr.ivA env.params I ≤ Tr.ivB env.params I := by rw [ivA_eq, ivB_eq]; exact hF.2.1
    have hb := ha.trans hab
    obtain ⟨c', v, a1, a2⟩ := ih (S := S + Tr.ivA env.params I) (E := E + Tr.ivB env.params I)
      (by linarith) hF.2.2 (by rw [ivA_eq, ivB_eq]; exact hf.2)
    obtain ⟨z, b1, b2, b3, b4⟩ := computeTimedGlobally_total env.B s.z (b := Tr.ivB env.params I)
      a2.st.2.2.2.2 ha
    obtain ⟨z', d1, d2, _⟩ := resize_hd (x := z) (s := s.start) (t := max s.start (min z.endTime s.stop)) 0
      b2.ne (by
        have := le_max_left s.start (min z.endTime s.stop)
        have := tol_pos
        linarith)
    obtain ⟨p, hp⟩ := front_ok d2.ne
    refine ⟨.alw { s with z := z' } I c', p.value, ?_, st hf.1 d2, ha, hb, a2⟩
    simp only [Tr.computeRob, a1, bind, Except.bind, Tr.alwRob, b1, d1, hp]
  | _ => intro _ _ _ hF; exact hF.elim

/-! ## The bounds -/

theorem append_empty (ip : Interpol) {z : Signal} (hz : z.samples = []) (t c : ℚ) :
    appendSample0 ip z t c = .ok ⟨[⟨t, c, 0⟩], t, t⟩ := by
  unfold appendSample0 appendSample
  rw [if_neg (fun h => h.2 hz)]
  cases ip <;> simp [hz]

theorem resize_append (ip : Interpol) {x : Signal} (hx : x.samples ≠ []) (s t v c : ℚ) :
    ∃ z w, resize x s t v = .ok z ∧ Tr.appendIfEmpty ip z s c = .ok w ∧ Hd w := by
  by_cases h : t < s - tol
  · refine ⟨⟨[], 0, 0⟩, ⟨[⟨s, c, 0⟩], s, s⟩, by unfold resize; rw [if_pos h], ?_, ⟨_, [], rfl, rfl⟩⟩
    unfold Tr.appendIfEmpty
    rw [if_pos rfl, append_empty ip rfl]
  · obtain ⟨z, a1, a2, _⟩ := resize_hd (x := x) (s := s) (t := t) v hx (not_lt.1 h)
    exact ⟨z, z, a1, appendIfEmpty_ne a2.ne _ _, a2⟩

/-- Both bounds of a formula without until return. -/
theorem lu_any (hD : WellShaped n env.data) (hsem : env.sem = .SPACE) (hne : env.data ≠ []) (T : Tr) :
    ∀ {S E : ℚ}, 0 ≤ E → IsFormula n env.params T → TOk env.data env.params S E T →
    (∃ T' v, Tr.computeLow env T = .ok (T', v) ∧ Hd T'.st.zlow) ∧
    (∃ T' v, Tr.computeUp env T = .ok (T', v) ∧ Hd T'.st.zup) := by
  have ev : ∀ {s : St} {a b : ℚ} {x : Signal}, s.zlow = .empty → s.zup = .empty → Hd x → 0 ≤ a →
      (∃ z v, Tr.evLow env s a b x = .ok (z, v) ∧ Hd z) ∧ (∃ z v, Tr.evUp env s a b x = .ok (z, v) ∧ Hd z) ∧
      (∃ z v, Tr.alwLow env s a b x = .ok (z, v) ∧ Hd z) ∧ (∃ z v, Tr.alwUp env s a b x = .ok (z, v) ∧ Hd z) := by
    intro s a b x hl hu hx ha
    unfold Tr.evLow Tr.evUp Tr.alwLow Tr.alwUp
    rw [hl, hu]
    by_cases h0 : x.endTime < a
    · simp only [if_pos h0, append_empty env.ip (show Signal.empty.samples = [] from rfl), bind, Except.bind]
      refine ⟨⟨_, _, rfl, ?_⟩, ⟨_, _, rfl, ?_⟩, ⟨_, _, rfl, ?_⟩, ⟨_, _, rfl, ?_⟩⟩ <;> exact ⟨_, [], rfl, rfl⟩
    · simp only [if_neg h0, bind, Except.bind]
      obtain ⟨z, b1, b2, b3, b4⟩ := computeTimedEventually_total env.B .empty (b := b) hx ha
      obtain ⟨y, c1, c2, c3, c4⟩ := computeTimedGlobally_total env.B .empty (b := b) hx ha
      simp only [b1, c1]
      refine ⟨?_, ?_, ?_, ?_⟩
      · obtain ⟨z', w, d1, d2, d3⟩ := resize_append env.ip b2.ne s.start (max s.start (min z.endTime s.stop)) 0 (-env.B)
        obtain ⟨p, hp⟩ := front_ok d3.ne
        exact ⟨w, p.value, by simp only [d1, d2, hp], d3⟩
      · obtain ⟨z', w, d1, d2, d3⟩ := resize_append env.ip b2.ne s.start (min (z.endTime - b + a) s.stop) 0 env.B
        obtain ⟨p, hp⟩ := front_ok d3.ne
        exact ⟨w, p.value, by simp only [d1, d2, hp], d3⟩
      · obtain ⟨z', w, d1, d2, d3⟩ := resize_append env.ip c2.ne s.start (min (y.endTime - b + a) s.stop) 0 (-env.B)
        obtain ⟨p, hp⟩ := front_ok d3.ne
        exact ⟨w, p.value, by simp only [d1, d2, hp], d3⟩
      · obtain ⟨z', w, d1, d2, d3⟩ := resize_append env.ip c2.ne s.start (max s.start (min y.endTime s.stop)) 0 env.B
        obtain ⟨p, hp⟩ := front_ok d3.ne
        exact ⟨w, p.value, by simp only [d1, d2, hp], d3⟩
  induction T with
  | atom s k l r =>
    intro S E hE hF hT
    obtain ⟨z, l', r', v, h1, h2⟩ := atom_any hD hsem hne hE hF (P := []) (Or.inr hT)
    obtain ⟨⟨s1, s2, s3, s4, s5⟩, _⟩ := h2
    constructor
    · obtain ⟨w, w1, w2⟩ : ∃ w, Tr.defaultLow env { s with z := z } = .ok w ∧ Hd w := by
        unfold Tr.defaultLow
        by_cases h : z.endTime < s.start
        · rw [if_pos h, append_empty _ (by rw [s3]; rfl)]
          exact ⟨_, rfl, _, [], rfl, rfl⟩
        · rw [if_neg h]; exact ⟨_, rfl, s5⟩
      obtain ⟨p, hp⟩ := front_ok w2.ne
      exact ⟨.atom { s with z := z, zlow := w } k l' r', p.value,
        by simp only [Tr.computeLow, h1, bind, Except.bind, Tr.st, w1, hp, Tr.setSt], w2⟩
    · obtain ⟨w, w1, w2⟩ : ∃ w, Tr.defaultUp env { s with z := z } = .ok w ∧ Hd w := by
        unfold Tr.defaultUp
        by_cases h : z.endTime < s.start
        · rw [if_pos h, append_empty _ (by rw [s4]; rfl)]
          exact ⟨_, rfl, _, [], rfl, rfl⟩
        · rw [if_neg h]; exact ⟨_, rfl, s5⟩
      obtain ⟨p, hp⟩ := front_ok w2.ne
      exact ⟨.atom { s with z := z, zup := w } k l' r', p.value,
        by simp only [Tr.computeUp, h1, bind, Except.bind, Tr.st, w1, hp, Tr.setSt], w2⟩
  | not s c ih =>
    intro S E hE hF hT
    obtain ⟨⟨c1, v1, l1, l2⟩, ⟨c2, v2, u1, u2⟩⟩ := ih hE hF hT.2
    obtain ⟨p, hp⟩ := front_ok (Hd_not u2).ne
    obtain ⟨q, hq⟩ := front_ok (Hd_not l2).ne
    exact ⟨⟨.not { s with zlow := computeNot c2.st.zup } c2, p.value,
      by simp only [Tr.computeLow, u1, bind, Except.bind, if_neg u2.ne, hp], Hd_not u2⟩,
      ⟨.not { s with zup := computeNot c1.st.zlow } c1, q.value,
      by simp only [Tr.computeUp, l1, bind, Except.bind, if_neg l2.ne, hq], Hd_not l2⟩⟩
  | and s l r ih1 ih2 =>
    intro S E hE hF hT
    obtain ⟨⟨c1, v1, l1, l2⟩, ⟨c2, v2, u1, u2⟩⟩ := ih1 hE hF.1 hT.2.1
    obtain ⟨⟨d1, w1, m1, m2⟩, ⟨d2, w2, t1, t2⟩⟩ := ih2 hE hF.2 hT.2.2
    constructor
    · obtain ⟨z, a1, a2, _⟩ := computeAndM_total l2 m2
      obtain ⟨z', w, b1, b2, b3⟩ := resize_append env.ip a2.ne s.start
        (min c1.st.zlow.endTime d1.st.zlow.endTime) (-env.B) (-env.B)
      obtain ⟨p, hp⟩ := front_ok b3.ne
      exact ⟨.and { s with zlow := w } c1 d1, p.value,
        by simp only [Tr.computeLow, l1, m1, bind, Except.bind, Tr.andLow, a1, b1, b2, hp], b3⟩
    · obtain ⟨z, a1, a2, _⟩ := computeAndM_total u2 t2
      obtain ⟨z', w, b1, b2, b3⟩ := resize_append env.ip a2.ne s.start z.endTime env.B env.B
      obtain ⟨p, hp⟩ := front_ok b3.ne
      exact ⟨.and { s with zup := w } c2 d2, p.value,
        by simp only [Tr.computeUp, u1, t1, bind, Except.bind, Tr.andUp, a1, b1, b2, hp], b3⟩
  | or s l r ih1 ih2 =>
    intro S E hE hF hT
    obtain ⟨⟨c1, v1, l1, l2⟩, ⟨c2, v2, u1, u2⟩⟩ := ih1 hE hF.1 hT.2.1
    obtain ⟨⟨d1, w1, m1, m2⟩, ⟨d2, w2, t1, t2⟩⟩ := ih2 hE hF.2 hT.2.2
    constructor
    · obtain ⟨z, a1, a2, _⟩ := computeOrM_total l2 m2
      obtain ⟨z', w, b1, b2, b3⟩ := resize_append env.ip a2.ne s.start z.endTime (-env.B) (-env.B)
      obtain ⟨p, hp⟩ := front_ok b3.ne
      exact ⟨.or { s with zlow := w } c1 d1, p.value,
        by simp only [Tr.computeLow, l1, m1, bind, Except.bind, Tr.orLow, a1, b1, b2, hp], b3⟩
    · obtain ⟨z, a1, a2, _⟩ := computeOrM_total u2 t2
      obtain ⟨z', w, b1, b2, b3⟩ := resize_append env.ip a2.ne s.start
        (min c2.st.zup.endTime d2.st.zup.endTime) env.B env.B
      obtain ⟨p, hp⟩ := front_ok b3.ne
      exact ⟨.or { s with zup := w } c2 d2, p.value,
        by simp only [Tr.computeUp, u1, t1, bind, Except.bind, Tr.orUp, a1, b1, b2, hp], b3⟩
  | implies s l r ih1 ih2 =>
    intro S E hE hF hT
    obtain ⟨⟨c1, v1, l1, l2⟩, ⟨c2, v2, u1, u2⟩⟩ := ih1 hE hF.1 hT.2.1
    obtain ⟨⟨d1, w1, m1, m2⟩, ⟨d2, w2, t1, t2⟩⟩ := ih2 hE hF.2 hT.2.2
    constructor
    · obtain ⟨z, a1, a2, _⟩ := computeOrM_total (Hd_not u2) m2
      obtain ⟨z', w, b1, b2, b3⟩ := resize_append env.ip a2.ne s.start z.endTime (-env.B) (-env.B)
      obtain ⟨p, hp⟩ := front_ok b3.ne
      exact ⟨.implies { s with zlow := w } c2 d1, p.value,
        by simp only [Tr.computeLow, u1, m1, bind, Except.bind, Tr.impliesLow, a1, b1, b2, hp], b3⟩
    · obtain ⟨z, a1, a2, _⟩ := computeOrM_total (Hd_not l2) t2
      obtain ⟨z', w, b1, b2, b3⟩ := resize_append env.ip a2.ne s.start
        (min (computeNot c1.st.zlow).endTime d2.st.zup.endTime) env.B env.B
      obtain ⟨p, hp⟩ := front_ok b3.ne
      exact ⟨.implies { s with zup := w } c1 d2, p.value,
        by simp only [Tr.computeUp, l1, t1, bind, Except.bind, Tr.impliesUp, a1, b1, b2, hp], b3⟩
  | ev s I c ih =>
    intro S E hE hF hT
    obtain ⟨⟨c1, v1, l1, l2⟩, ⟨c2, v2, u1, u2⟩⟩ := ih (by linarith [hT.2.2.1]) hF.2.2 hT.2.2.2
    obtain ⟨z, v, a1, a2⟩ := (ev (s := s) (b := Tr.ivB env.params I) hT.1.2.2.1 hT.1.2.2.2.1 l2 hT.2.1).1
    obtain ⟨z', v', b1, b2⟩ := (ev (s := s) (b := Tr.ivB env.params I) hT.1.2.2.1 hT.1.2.2.2.1 u2 hT.2.1).2.1
    exact ⟨⟨.ev { s with zlow := z } I c1, v, by simp only [Tr.computeLow, l1, bind, Except.bind, a1], a2⟩,
      ⟨.ev { s with zup := z' } I c2, v', by simp only [Tr.computeUp, u1, bind, Except.bind, b1], b2⟩⟩
  | alw s I c ih =>
    intro S E hE hF hT
    obtain ⟨⟨c1, v1, l1, l2⟩, ⟨c2, v2, u1, u2⟩⟩ := ih (by linarith [hT.2.2.1]) hF.2.2 hT.2.2.2
    obtain ⟨z, v, a1, a2⟩ := (ev (s := s) (b := Tr.ivB env.params I) hT.1.2.2.1 hT.1.2.2.2.1 l2 hT.2.1).2.2.1
    obtain ⟨z', v', b1, b2⟩ := (ev (s := s) (b := Tr.ivB env.params I) hT.1.2.2.1 hT.1.2.2.2.1 u2 hT.2.1).2.2.2
    exact ⟨⟨.alw { s with zlow := z } I c1, v, by simp only [Tr.computeLow, l1, bind, Except.bind, a1], a2⟩,
      ⟨.alw { s with zup := z' } I c2, v', by simp only [Tr.computeUp, u1, bind, Except.bind, b1], b2⟩⟩
  | _ => intro _ _ _ hF; exact hF.elim

/-! ## The whole evaluation -/

theorem Spec.IsExpr.term : ∀ {T : Tr}, IsExpr n T → IsTerm T := by
  intro T
  induction T with
  | sig | const => exact fun _ => trivial
  | abs _ c ih => exact fun h => ih h
  | plus _ l r h1 h2 | minus _ l r h1 h2 | mult _ l r h1 h2 => exact fun h => ⟨h1 h.1, h2 h.2⟩
  | _ => exact fun h => h.elim

theorem Spec.IsFormula.stl {P : Assoc ℚ} : ∀ {T : Tr}, IsFormula n P T → IsStl T := by
  intro T
  induction T with
  | atom => exact fun h => ⟨h.1.term, h.2.term⟩
  | not _ c ih => exact fun h => ih h
  | ev _ _ c ih | alw _ _ c ih => exact fun h => ih h.2.2
  | and _ l r h1 h2 | or _ l r h1 h2 | implies _ l r h1 h2 => exact fun h => ⟨h1 h.1, h2 h.2⟩
  | _ => exact fun h => h.elim

theorem isExpr_prepare {P : Assoc ℚ} : ∀ (T : Tr) (s e : ℚ), IsExpr n T → IsExpr n (Monitor.prepare P s e T) := by
  unfold Monitor.prepare
  intro T
  induction T with
  | sig | const => exact fun _ _ h => h
  | abs _ c ih => exact fun s e h => ih s e h
  | plus _ l r h1 h2 | minus _ l r h1 h2 | mult _ l r h1 h2 => exact fun s e h => ⟨h1 s e h.1, h2 s e h.2⟩
  | _ => exact fun _ _ h => h.elim

theorem isFormula_prepare {P Q : Assoc ℚ} : ∀ (T : Tr) (s e : ℚ), IsFormula n Q T →
    IsFormula n Q (Monitor.prepare P s e T) := by
  have hex := @isExpr_prepare n P
  unfold Monitor.prepare at hex ⊢
  intro T
  induction T with
  | atom => exact fun s e h => ⟨hex _ s e h.1, hex _ s e h.2⟩
  | not _ c ih => exact fun s e h => ih s e h
  | ev _ _ c ih | alw _ _ c ih => exact fun s e h => ⟨h.1, h.2.1, ih _ _ h.2.2⟩
  | and _ l r h1 h2 | or _ l r h1 h2 | implies _ l r h1 h2 => exact fun s e h => ⟨h1 s e h.1, h2 s e h.2⟩
  | _ => exact fun _ _ h => h.elim

theorem run3_any (hD : WellShaped n env.data) (hsem : env.sem = .SPACE) (hne : env.data ≠ []) {T : Tr}
    {s e : ℚ} (he : 0 ≤ e) (hF : IsFormula n env.params T) :
    ∃ x, Monitor.run3 env (Monitor.prepare env.params s e T) = .ok x := by
  have hF0 := isFormula_prepare (P := env.params) T s e hF
  have hf := fresh_prepare env.params T s e
  set T0 := Monitor.prepare env.params s e T with hT0
  obtain ⟨T1, v, a1, a2⟩ := rob_any hD hsem hne T0 he hF0 hf
  have hF1 : IsFormula n env.params T1 := by
    rw [← isFormula_forget, Tr.forgetB_computeRob T0 a1, isFormula_forget]; exact hF0
  obtain ⟨⟨T2, lo, b1, _⟩, ⟨T2', up, c1, _⟩⟩ := lu_any hD hsem hne T1 he hF1 a2
  obtain ⟨hS, _⟩ := rob_settles hD T0 hF0.stl hf a1
  obtain ⟨_, hk⟩ := bnd_keeps hD T1 hS (b := true) b1
  rcases seen_cases hk.seen with ⟨x, e1, _⟩ | ⟨U', V1, w, e1, e2, _⟩
  · rw [show bnd env (!true) T1 = Tr.computeUp env T1 from rfl, c1] at e1; cases e1
  · exact ⟨(V1, v, lo, w), by
      simp only [Monitor.run3, a1, b1, bind, Except.bind]
      rw [show Tr.computeUp env T2 = .ok (V1, w) from e2]⟩

/-! ## No rows -/

theorem rob_norows (hne : env.data = []) (T : Tr) : ∀ {S E : ℚ} {P : Assoc ℚ}, 0 ≤ E →
    IsExpr n T ∨ IsFormula n P T → Fresh P S E T → Tr.computeRob env T = .error Tr.outOfRange := by
  induction T with
  | sig s v m td =>
    intro S E P hE hF ⟨⟨_, h2, _⟩, h3⟩
    obtain ⟨i, hi, hi0, _⟩ := hF.resolve_right id
    obtain ⟨j, rfl⟩ : ∃ j, i = j + 1 := ⟨i - 1, by omega⟩
    subst h3
    simp only [Tr.computeRob, Tr.sigRob, hi, Option.getD_some, h2, if_pos (And.intro hne hE), bind, Except.bind]
  | const s q v td =>
    intro S E P hE hF ⟨⟨_, h2, _⟩, h3⟩
    subst h3
    simp only [Tr.computeRob, Tr.constRob, h2, if_pos (And.intro hne hE), bind, Except.bind]
  | abs s c ih =>
    intro S E P hE hF hf
    simp only [Tr.computeRob, ih hE (Or.inl (hF.resolve_right id)) hf.2, bind, Except.bind]
  | plus s l r ih1 ih2 | minus s l r ih1 ih2 | mult s l r ih1 ih2 =>
    intro S E P hE hF hf
    simp only [Tr.computeRob, ih1 hE (Or.inl (hF.resolve_right id).1) hf.2.1, bind, Except.bind]
  | atom s k l r ih1 ih2 =>
    intro S E P hE hF hf
    simp only [Tr.computeRob, ih1 hE (Or.inl (hF.resolve_left id).1) hf.2.1, bind, Except.bind]
  | not s c ih =>
    intro S E P hE hF hf
    simp only [Tr.computeRob, ih hE (Or.inr (hF.resolve_left id)) hf.2, bind, Except.bind]
  | and s l r ih1 ih2 | or s l r ih1 ih2 | implies s l r ih1 ih2 =>
    intro S E P hE hF hf
    simp only [Tr.computeRob, ih1 hE (Or.inr (hF.resolve_left id).1) hf.2.1, bind, Except.bind]
  | ev s I c ih | alw s I c ih =>
    intro S E P hE hF hf
    have h := hF.resolve_left id
    simp only [Tr.computeRob, ih (by linarith [h.1, h.2.1]) (Or.inr h.2.2) hf.2, bind, Except.bind]
  | untl => intro S E P hE hF; exact (hF.elim id id).elim

/-! ## Boolean semantics -/

theorem rob_boolean (hD : WellShaped n env.data) (hsem : env.sem = .BOOLEAN) (hne : env.data ≠ []) (T : Tr) :
    ∀ {S E : ℚ} {P : Assoc ℚ}, 0 ≤ E → IsFormula n P T → Fresh P S E T →
    Tr.computeRob env T = .error (.exn "Invalid semantics value") := by
  induction T with
  | atom s k l r =>
    intro S E P hE hF hf
    obtain ⟨l', v1, a1, a2⟩ := expr_any hD hne hE l hF.1 (Or.inl hf.2.1)
    obtain ⟨r', v2, b1, b2⟩ := expr_any hD hne hE r hF.2 (Or.inl hf.2.2)
    have a3 := a2.st hD hne hE
    have b3 := b2.st hD hne hE
    have tt : times (comb (atomS k) l'.st.z.samples r'.st.z.samples) = leafTimes env.data S E := by
      rw [comb_times (atomS_time k) (a3.t.trans b3.t.symm), a3.t]
    obtain ⟨z, c1, c2⟩ := op_any hD hne hE env.ip tt
    have hz : Tr.atomRob env k s.z l'.st.z r'.st.z = .error (.exn "Invalid semantics value") := by
      unfold Tr.atomRob
      rw [atomLoop_eq, hf.1.2.2.1, c1, hsem]
      rfl
    simp only [Tr.computeRob, a1, b1, bind, Except.bind, hz]
  | not s c ih =>
    intro S E P hE hF hf
    simp only [Tr.computeRob, ih hE hF hf.2, bind, Except.bind]
  | and s l r ih1 ih2 | or s l r ih1 ih2 | implies s l r ih1 ih2 =>
    intro S E P hE hF hf
    simp only [Tr.computeRob, ih1 hE hF.1 hf.2.1, bind, Except.bind]
  | ev s I c ih | alw s I c ih =>
    intro S E P hE hF hf
    simp only [Tr.computeRob, ih (by linarith [hF.1, hF.2.1]) hF.2.2 hf.2, bind, Except.bind]
  | _ => intro _ _ _ _ hF; exact hF.elim

end

end STLRom
