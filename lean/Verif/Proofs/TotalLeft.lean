import Verif.Proofs.Runs
import Verif.Proofs.LeftRun
import Verif.Proofs.Steady
import Verif.Spec.LeftTotal

/-!
# Evaluation in the LEFT_TIME semantics returns
-/

namespace STLRom
open Signal Spec

theorem rowTime_le_leafEnd {D : List (List ℚ)} {E : ℚ} (hD : (D.map rowTime).Pairwise (· < ·)) {row : List ℚ}
    (hr : row ∈ D) : min (rowTime row) E ≤ leafEnd D E := by
  unfold leafEnd
  split_ifs with h0
  · exact min_le_right _ _
  · rcases reads_cases E 0 D with h | h
    · refine (min_le_left _ _).trans ?_
      unfold lastRead
      rw [h, List.getLast?_eq_some_getLast (List.ne_nil_of_mem hr)]
      have hm := List.dropLast_append_getLast (List.ne_nil_of_mem hr)
      rw [← hm] at hr hD
      rw [List.map_append] at hD
      rcases List.mem_append.1 hr with h1 | h1
      · exact ((List.pairwise_append.1 hD).2.2 _ (List.mem_map_of_mem h1) _ (by simp)).le
      · exact (congrArg rowTime (List.mem_singleton.1 h1)).le
    · exact absurd h h0

theorem leafEnd_le {D : List (List ℚ)} {E : ℚ} : leafEnd D E ≤ E := by
  unfold leafEnd
  split_ifs with h
  · exact le_rfl
  · exact not_lt.1 h

/-- The left time robustness of a signal on a proper interval. -/
theorem leftTimeRob_total {y : Signal} (hy : Incr y) (h : y.beginTime < y.endTime) :
    ∃ z, computeLeftTimeRob y = .ok z ∧ Incr z ∧ z.beginTime = y.beginTime ∧ z.endTime = y.endTime := by
  obtain ⟨p, l, hl⟩ := List.exists_cons_of_ne_nil hy.ne
  have hh : y.samples.head? = some p := by rw [hl]; rfl
  have hp := hy.head p hh
  obtain ⟨r, hr⟩ := boolList_cons y.endTime p l
  rw [← hl] at hr
  obtain ⟨b1, _⟩ := boolList_steps y.endTime hy.inc
  rw [hr] at b1
  obtain ⟨c, d, h1, h2⟩ := computeBoolean_steps b1 hr hp
  have hz : ∃ z, computeLeftTimeRob y = .ok z ∧ z.samples ≠ [] ∧ z.beginTime = y.beginTime ∧
      z.endTime = y.endTime := by
    rw [computeLeftTimeRob, h2]
    refine ⟨_, rfl, ?_, rfl, rfl⟩
    simp only [ne_eq, List.map_eq_nil_iff]
    split_ifs with hc
    · rintro rfl
      simp only [List.nil_append, List.cons.injEq] at h1
      rw [← h1.1] at hc
      simp only at hc
      rw [hp] at hc
      exact h.ne hc
    · simp
  obtain ⟨z, a1, a2, a3, a4⟩ := hz
  obtain ⟨g1, ⟨q, g2, g3⟩, _⟩ := leftTimeRob_again hy.inc hh hp a1 a2
  exact ⟨z, a1, ⟨a2, fun p hp => by rw [g2] at hp; rw [← Option.some.inj hp]; exact g3, g1⟩, a3, a4⟩

/-- The left time robustness of a signal at a single time is empty. -/
theorem leftTimeRob_point {y : Signal} {p : Sample} (hy : y.samples = [p]) (hp : p.time = y.beginTime)
    (h : y.beginTime = y.endTime) : computeLeftTimeRob y = .ok ⟨[], y.beginTime, y.endTime⟩ := by
  have hb : boolList y.endTime y.samples = [⟨p.time, bit p, 0⟩] := by
    rw [hy, boolList, boolPiece, if_neg]
    · rfl
    · intro hc
      have h1 := zeroOf_gt hc
      have h2 : zeroOf p < y.endTime := hc.2
      rw [hp, h] at h1
      exact absurd (h1.trans h2) (lt_irrefl _)
  obtain ⟨c, d, h1, h2⟩ := computeBoolean_steps (y := y) (by simp [SInc]) hb hp
  have h1' : [(⟨p.time, bit p, 0⟩ : Sample)] = d ++ [c] := h1
  obtain ⟨rfl, rfl⟩ : d = [] ∧ c = ⟨p.time, bit p, 0⟩ := by
    cases d with
    | nil => exact ⟨rfl, by simpa using h1'.symm⟩
    | cons a d => simp at h1'
  rw [computeLeftTimeRob, h2, if_pos (show p.time = y.endTime from hp.trans h)]
  rfl

theorem leafEnd_le_of {D : List (List ℚ)} {E S : ℚ} (hne : D ≠ []) (hE : 0 ≤ E)
    (h : E ≤ S ∨ ∀ row ∈ D, rowTime row ≤ S) : leafEnd D E ≤ S := by
  rcases h with h | h
  · exact leafEnd_le.trans h
  · have : lastRead E 0 D ≤ S := by
      have hr : reads E 0 D ≠ [] := by
        obtain ⟨row, rows, rfl⟩ := List.exists_cons_of_ne_nil hne
        simp [reads, hE]
      unfold lastRead
      rw [List.getLast?_eq_some_getLast hr]
      exact h _ ((reads_prefix E 0 D).subset (List.getLast_mem hr))
    unfold leafEnd
    split_ifs with h0
    · exact h0.le.trans this
    · exact this

theorem Incr.hd {z : Signal} (h : Incr z) : Hd z := by
  obtain ⟨p, l, hl⟩ := List.exists_cons_of_ne_nil h.ne
  exact ⟨p, l, hl, h.head p (by rw [hl]; rfl)⟩

section
variable {env : Env} {n : ℕ} {S E : ℚ}

theorem ETot.ends_leaf (hD : WellShaped n env.data) (hne : env.data ≠ []) (hE : 0 ≤ E) (hSE : S ≤ E) {T : Tr}
    (h : ETot env.data S E T) (hr : IsLeaf T ∨ RowAt env.data E) : T.st.z.endTime = leafEnd env.data E := by
  rcases hr with hl | hr
  · cases T with
    | sig | const => exact h.2.2.e
    | _ => exact hl.elim
  · have he : leafEnd env.data E = E := by
      obtain ⟨row, h1, h2⟩ := hr
      have := rowTime_le_leafEnd (E := E) hD.inc h1
      rw [rowTime_of_head h2, min_self] at this
      exact le_antisymm leafEnd_le this
    rw [he]
    exact h.ends hD hne hE hSE he (Or.inr (Or.inr hr))

/-- A formula after the first run in the LEFT_TIME semantics. -/
def LOk (D : List (List ℚ)) (P : Assoc ℚ) : ℚ → ℚ → Tr → Prop
  | S, E, .atom s _ l r => StAny S E s ∧ (Incr s.z ∧ s.z.beginTime < leafEnd D E ∧ s.z.endTime = leafEnd D E ∧
      S ≤ E ∧ (IsLeaf l ∨ RowAt D E)) ∧ ETot D S E l ∧ ETot D S E r
  | S, E, .not s c => StAny S E s ∧ LOk D P S E c
  | S, E, .and s l r | S, E, .or s l r | S, E, .implies s l r => StAny S E s ∧ LOk D P S E l ∧ LOk D P S E r
  | S, E, .ev s I c | S, E, .alw s I c => StAny S E s ∧ 0 ≤ Tr.ivA P I ∧ 0 ≤ Tr.ivB P I ∧
    LOk D P (S + Tr.ivA P I) (E + Tr.ivB P I) c
  | _, _, _ => False

theorem LOk.st {D : List (List ℚ)} {P : Assoc ℚ} {T : Tr} (h : LOk D P S E T) : StAny S E T.st := by
  cases T <;> first | exact h.1 | exact h.elim

/-- `ev` cuts the front of its child's signal. -/
theorem LOk.cut {D : List (List ℚ)} {P : Assoc ℚ} {T : Tr} {z : Signal} {s : ℚ} (h : LOk D P S E T)
    (hs : s < T.st.z.endTime) (hz : Hd z) (hr : resize T.st.z s T.st.z.endTime 0 = .ok z) :
    LOk D P S E (Tr.setZ z T) := by
  have st : StAny S E { T.st with z := z } := ⟨h.st.1, h.st.2.1, h.st.2.2.1, h.st.2.2.2.1, hz⟩
  cases T with
  | atom s' k l r =>
    obtain ⟨w, a1, a2, a3, a4, _⟩ := resize_end (v := 0) h.2.1.1 hs.le
    rw [show (Tr.atom s' k l r).st.z = s'.z from rfl, a1] at hr
    obtain rfl := Except.ok.inj hr
    refine ⟨st, ⟨a2, ?_, ?_, h.2.1.2.2.2⟩, h.2.2⟩
    · show w.beginTime < _
      rw [a3, ← h.2.1.2.2.1]; exact hs
    · exact a4.trans h.2.1.2.2.1
  | not | and | or | implies | ev | alw => exact ⟨st, h.2⟩
  | _ => exact h.elim

theorem atom_lft (hD : WellShaped n env.data) (hsem : env.sem = .LEFT_TIME) (hne : env.data ≠ []) (hE : 0 ≤ E)
    {s : St} {k : Cmp} {l r : Tr} (he : IsExpr n l ∧ IsExpr n r) {P Q : Assoc ℚ}
    (ha : (Fresh P S E (.atom s k l r) ∧ LeftWindows env.data Q S E (.atom s k l r)) ∨
      LOk env.data Q S E (.atom s k l r)) :
    ∃ z l' r' v, Tr.computeRob env (.atom s k l r) = .ok (.atom { s with z := z } k l' r', v) ∧
      LOk env.data Q S E (.atom { s with z := z } k l' r') := by
  obtain ⟨l', v1, a1, a2⟩ := expr_any hD hne hE l he.1 (ha.imp (fun h => h.1.2.1) (fun h => h.2.2.1))
  obtain ⟨r', v2, b1, b2⟩ := expr_any hD hne hE r he.2 (ha.imp (fun h => h.1.2.2) (fun h => h.2.2.2))
  have a3 := a2.st hD hne hE
  have b3 := b2.st hD hne hE
  have hSE : S ≤ E := ha.elim (fun h => h.2.1.le) (fun h => h.2.1.2.2.2.1)
  have hl : IsLeaf l ∨ RowAt env.data E := ha.elim (fun h => h.2.2.2) (fun h => h.2.1.2.2.2.2)
  have hl' : IsLeaf l' ∨ RowAt env.data E := hl.imp_left fun h => by
    rw [← isLeaf_forget, Tr.forgetB_computeRob l a1, isLeaf_forget]; exact h
  have hle := a2.ends_leaf hD hne hE hSE hl'
  have hG := leafTimes_grid (S := S) hD.inc hne hE
  have tt : times (comb (atomS k) l'.st.z.samples r'.st.z.samples) = leafTimes env.data S E := by
    rw [comb_times (atomS_time k) (a3.t.trans b3.t.symm), a3.t]
  obtain ⟨z, c1, c2, c3⟩ : ∃ z, appendSamples env.ip s.z (comb (atomS k) l'.st.z.samples r'.st.z.samples) = .ok z ∧
      Incr z ∧ z.beginTime < leafEnd env.data E := by
    rcases ha with ha | ha
    · rw [ha.1.1.2.2.1]
      obtain ⟨z, c1, c2⟩ := op_any hD hne hE env.ip tt
      have hd := c2.hd hD hne hE
      refine ⟨z, c1, ⟨hd.ne, fun p hp => ?_, sinc_of_times (by rw [c2.t]; exact hG.inc)⟩, ?_⟩
      · obtain ⟨q, r, h1, h2⟩ := hd
        rw [h1] at hp
        rw [← Option.some.inj hp]; exact h2
      · obtain ⟨h1, ⟨row, hr, t, ht, hSt⟩, _⟩ := ha.2
        have h3 := rowTime_le_leafEnd (E := E) hD.inc hr
        rw [rowTime_of_head ht] at h3
        have h4 : S < leafEnd env.data E := (lt_min hSt h1).trans_le h3
        rw [c2.b, leafBegin, if_pos h4]
        exact h4
    · exact ⟨s.z, appendSamples_skip _ ha.1.2.2.2.2.ne _ fun p hp => (hG.le _ (by
        rw [← tt]; exact List.mem_map_of_mem hp)).trans ha.2.1.2.2.1.ge, ha.2.1.1, ha.2.1.2.1⟩
  obtain ⟨w, d1, d2, d3, d4⟩ := leftTimeRob_total (y := { z with endTime := l'.st.z.endTime })
    ⟨c2.ne, c2.head, c2.inc⟩ (by show z.beginTime < l'.st.z.endTime; rw [hle]; exact c3)
  have hz : Tr.atomRob env k s.z l'.st.z r'.st.z = .ok w := by
    unfold Tr.atomRob
    rw [atomLoop_eq, c1, hsem]
    exact d1
  obtain ⟨p, hp⟩ := front_ok d2.ne
  have st : s.start = S ∧ s.stop = E ∧ s.zlow = .empty ∧ s.zup = .empty := by
    rcases ha with ha | ha
    · exact ⟨ha.1.1.1, ha.1.1.2.1, ha.1.1.2.2.2⟩
    · exact ⟨ha.1.1, ha.1.2.1, ha.1.2.2.1, ha.1.2.2.2.1⟩
  exact ⟨w, l', r', p.value,
    by simp only [Tr.computeRob, a1, b1, bind, Except.bind, hz, hp],
    ⟨st.1, st.2.1, st.2.2.1, st.2.2.2, d2.hd⟩,
    ⟨d2, by show w.beginTime < _; rw [d3]; exact c3, d4.trans hle, hSE, hl'⟩, a2, b2⟩

/-- A comparison at a single time, or after the data. -/
theorem atom_lft_ub (hD : WellShaped n env.data) (hsem : env.sem = .LEFT_TIME) (hne : env.data ≠ []) (hE : 0 ≤ E)
    {s : St} {k : Cmp} {l r : Tr} (he : IsExpr n l ∧ IsExpr n r) {P : Assoc ℚ}
    (hf : Fresh P S E (.atom s k l r)) (h : E ≤ S ∨ ∀ row ∈ env.data, rowTime row ≤ S) :
    Tr.computeRob env (.atom s k l r) = .error .ub := by
  obtain ⟨l', v1, a1, a2⟩ := expr_any hD hne hE l he.1 (Or.inl hf.2.1)
  obtain ⟨r', v2, b1, b2⟩ := expr_any hD hne hE r he.2 (Or.inl hf.2.2)
  have a3 := a2.st hD hne hE
  have b3 := b2.st hD hne hE
  have hG := leafTimes_grid (S := S) hD.inc hne hE
  have hb : leafBegin env.data S E = leafEnd env.data E := by
    rw [leafBegin, if_neg (not_lt.2 (leafEnd_le_of hne hE h))]
  have tt : times (comb (atomS k) l'.st.z.samples r'.st.z.samples) = leafTimes env.data S E := by
    rw [comb_times (atomS_time k) (a3.t.trans b3.t.symm), a3.t]
  have one : leafTimes env.data S E = [leafEnd env.data E] := by
    have h1 := hG.head
    have h2 := hG.inc
    have h3 := hG.le
    rw [hb] at h1
    generalize leafTimes env.data S E = L at h1 h2 h3
    match L with
    | [] => simp at h1
    | [t] => simp only [List.head?_cons, Option.some.injEq] at h1; rw [h1]
    | t :: u :: L =>
      simp only [List.head?_cons, Option.some.injEq] at h1
      have h4 := (List.pairwise_cons.1 h2).1 u (by simp)
      have h5 := h3 u (by simp)
      rw [h1] at h4
      exact absurd (h4.trans_le h5) (lt_irrefl _)
  obtain ⟨z, c1, c2⟩ := op_any hD hne hE env.ip tt
  have hle : l'.st.z.endTime = leafEnd env.data E :=
    le_antisymm a3.hi (a3.le _ (by rw [one]; simp))
  obtain ⟨p, hp⟩ : ∃ p, z.samples = [p] := by
    have := c2.t
    rw [one] at this
    match hz : z.samples with
    | [] => rw [hz] at this; simp [times] at this
    | [p] => exact ⟨p, rfl⟩
    | p :: q :: L => rw [hz] at this; simp [times] at this
  have hpt : p.time = z.beginTime := by
    obtain ⟨q, r, h1, h2⟩ := c2.hd hD hne hE
    rw [hp] at h1
    simp only [List.cons.injEq] at h1
    rw [h1.1]; exact h2
  have hz : Tr.atomRob env k s.z l'.st.z r'.st.z = .ok ⟨[], z.beginTime, l'.st.z.endTime⟩ := by
    unfold Tr.atomRob
    rw [atomLoop_eq, hf.1.2.2.1, c1, hsem]
    exact leftTimeRob_point (y := { z with endTime := l'.st.z.endTime }) hp hpt
      (by show z.beginTime = l'.st.z.endTime; rw [hle, c2.b, hb])
  simp only [Tr.computeRob, a1, b1, bind, Except.bind, hz]
  rfl

/-- `compute_robustness` of a formula without until returns in the LEFT_TIME semantics. -/
theorem rob_lft (hD : WellShaped n env.data) (hsem : env.sem = .LEFT_TIME) (hne : env.data ≠ []) (T : Tr) :
    ∀ {S E : ℚ}, 0 ≤ E → IsFormula n env.params T → LeftWindows env.data env.params S E T →
    Fresh env.params S E T →
    ∃ T' v, Tr.computeRob env T = .ok (T', v) ∧ LOk env.data env.params S E T' := by
  have st : ∀ {S E : ℚ} {s : St} {z : Signal}, FreshSt S E s → Hd z → StAny S E { s with z := z } :=
    fun h hz => ⟨h.1, h.2.1, h.2.2.2.1, h.2.2.2.2, hz⟩
  induction T with
  | atom s k l r =>
    intro S E hE hF hw hf
    obtain ⟨z, l', r', v, h1, h2⟩ := atom_lft hD hsem hne hE hF (Or.inl ⟨hf, hw⟩)
    exact ⟨_, _, h1, h2⟩
  | not s c ih =>
    intro S E hE hF hw hf
    obtain ⟨c', v, a1, a2⟩ := ih hE hF hw hf.2
    have hz := Hd_not a2.st.2.2.2.2
    obtain ⟨p, hp⟩ := front_ok hz.ne
    exact ⟨.not { s with z := computeNot c'.st.z } c', p.value,
      by simp only [Tr.computeRob, a1, bind, Except.bind, hp], st hf.1 hz, a2⟩
  | and s l r ih1 ih2 =>
    intro S E hE hF hw hf
    obtain ⟨l', v, a1, a2⟩ := ih1 hE hF.1 hw.1 hf.2.1
    obtain ⟨r', w, b1, b2⟩ := ih2 hE hF.2 hw.2 hf.2.2
    obtain ⟨z, c1, c2, _⟩ := computeAndM_total
      (x := { l'.st.z with endTime := max l'.st.z.endTime r'.st.z.endTime })
      (y := { r'.st.z with endTime := max l'.st.z.endTime r'.st.z.endTime }) a2.st.2.2.2.2 b2.st.2.2.2.2
    obtain ⟨p, hp⟩ := front_ok c2.ne
    exact ⟨.and { s with z := z } l' r', p.value,
      by simp only [Tr.computeRob, a1, b1, bind, Except.bind, Tr.andRob, c1, hp], st hf.1 c2, a2, b2⟩
  | or s l r ih1 ih2 =>
    intro S E hE hF hw hf
    obtain ⟨l', v, a1, a2⟩ := ih1 hE hF.1 hw.1 hf.2.1
    obtain ⟨r', w, b1, b2⟩ := ih2 hE hF.2 hw.2 hf.2.2
    obtain ⟨z, c1, c2, _⟩ := computeOrM_total
      (x := { l'.st.z with endTime := max l'.st.z.endTime r'.st.z.endTime })
      (y := { r'.st.z with endTime := max l'.st.z.endTime r'.st.z.endTime }) a2.st.2.2.2.2 b2.st.2.2.2.2
    obtain ⟨p, hp⟩ := front_ok c2.ne
    exact ⟨.or { s with z := z } l' r', p.value,
      by simp only [Tr.computeRob, a1, b1, bind, Except.bind, Tr.orRob, c1, hp], st hf.1 c2, a2, b2⟩
  | implies s l r ih1 ih2 =>
    intro S E hE hF hw hf
    obtain ⟨l', v, a1, a2⟩ := ih1 hE hF.1 hw.1 hf.2.1
    obtain ⟨r', w, b1, b2⟩ := ih2 hE hF.2 hw.2 hf.2.2
    obtain ⟨z, c1, c2, _⟩ := computeOrM_total (Hd_not a2.st.2.2.2.2) b2.st.2.2.2.2
    obtain ⟨p, hp⟩ := front_ok c2.ne
    exact ⟨.implies { s with z := z } l' r', p.value,
      by simp only [Tr.computeRob, a1, b1, bind, Except.bind, computeImpliesM, c1, hp], st hf.1 c2, a2, b2⟩
  | ev s I c ih =>
    intro S E hE hF hw hf
    have ha : 0 ≤ Tr.ivA env.params I := by rw [ivA_eq]; exact hF.1
    have hab : Tr.ivA env.params I ≤ Tr.ivB env.params I := by rw [ivA_eq, ivB_eq]; exact hF.2.1
    have hb := ha.trans hab
    obtain ⟨c', v, a1, a2⟩ := ih (S := S + Tr.ivA env.params I) (E := E + Tr.ivB env.params I)
      (by linarith) hF.2.2 (by rw [ivA_eq, ivB_eq]; exact hw.2) (by rw [ivA_eq, ivB_eq]; exact hf.2)
    obtain ⟨z, b1, b2, b3, b4⟩ := computeTimedEventually_total env.B s.z (b := Tr.ivB env.params I)
      a2.st.2.2.2.2 ha
    obtain ⟨zc, c1, c2, c3, c4⟩ := resize_hd (x := c'.st.z)
      (s := min z.endTime s.stop - Tr.ivB env.params I) (t := c'.st.z.endTime) 0 a2.st.2.2.2.2.ne (by
        have := min_le_left z.endTime s.stop
        have := tol_pos
        linarith)
    obtain ⟨z', d1, d2, _⟩ := resize_hd (x := z) (s := s.start) (t := max s.start (min z.endTime s.stop)) 0
      b2.ne (by
        have := le_max_left s.start (min z.endTime s.stop)
        have := tol_pos
        linarith)
    obtain ⟨p, hp⟩ := front_ok d2.ne
    refine ⟨.ev { s with z := z' } I (Tr.setZ zc c'), p.value, ?_, st hf.1 d2, ha, hb, ?_⟩
    · simp only [Tr.computeRob, a1, bind, Except.bind, Tr.evRob, b1, c1, d1, hp]
    · refine a2.cut ?_ c2 c1
      have h0 : 0 < Tr.ivB env.params I := by rw [ivB_eq]; exact hw.1
      have := min_le_left z.endTime s.stop
      linarith
  | alw s I c ih =>
    intro S E hE hF hw hf
    have ha : 0 ≤ Tr.ivA env.params I := by rw [ivA_eq]; exact hF.1
    have hab : Tr.ivA env.params I ≤ Tr.ivB env.params I := by rw [ivA_eq, ivB_eq]; exact hF.2.1
    have hb := ha.trans hab
    obtain ⟨c', v, a1, a2⟩ := ih (S := S + Tr.ivA env.params I) (E := E + Tr.ivB env.params I)
      (by linarith) hF.2.2 (by rw [ivA_eq, ivB_eq]; exact hw) (by rw [ivA_eq, ivB_eq]; exact hf.2)
    obtain ⟨z, b1, b2, b3, b4⟩ := computeTimedGlobally_total env.B s.z (b := Tr.ivB env.params I)
      a2.st.2.2.2.2 ha
    obtain ⟨z', d1, d2, _⟩ := resize_hd (x := z) (s := s.start) (t := max s.start (min z.endTime s.stop)) 0
      b2.ne (by
        have := le_max_left s.start (min z.endTime s.stop)
        have := tol_pos
        linarith)
    obtain ⟨p, hp⟩ := front_ok d2.ne
    refine ⟨.alw { s with z := z' } I c', p.value, ?_, st hf.1 d2, ha, hb, a2⟩
    simp only [Tr.computeRob, a1, bind, Except.bind, Tr.alwRob, b1, d1, hp]
  | _ => intro _ _ _ hF; exact hF.elim

/-- Both bounds of a formula without until return in the LEFT_TIME semantics. -/
theorem lu_lft (hD : WellShaped n env.data) (hsem : env.sem = .LEFT_TIME) (hne : env.data ≠ []) (T : Tr) :
    ∀ {S E : ℚ}, 0 ≤ E → IsFormula n env.params T → LOk env.data env.params S E T →
    (∃ T' v, Tr.computeLow env T = .ok (T', v) ∧ Hd T'.st.zlow) ∧
    (∃ T' v, Tr.computeUp env T = .ok (T', v) ∧ Hd T'.st.zup) := by
  have ev : ∀ {s : St} {a b : ℚ} {x : Signal}, s.zlow = .empty → s.zup = .empty → Hd x → 0 ≤ a →
      (∃ z v, Tr.evLow env s a b x = .ok (z, v) ∧ Hd z) ∧ (∃ z v, Tr.evUp env s a b x = .ok (z, v) ∧ Hd z) ∧
      (∃ z v, Tr.alwLow env s a b x = .ok (z, v) ∧ Hd z) ∧ (∃ z v, Tr.alwUp env s a b x = .ok (z, v) ∧ Hd z) := by
    intro s a b x hl hu hx ha
    unfold Tr.evLow Tr.evUp Tr.alwLow Tr.alwUp
    rw [hl, hu]
    by_cases h0 : x.endTime < a
    · simp only [if_pos h0, append_empty env.ip (show Signal.empty.samples = [] from rfl), bind, Except.bind]
      refine ⟨⟨_, _, rfl, ?_⟩, ⟨_, _, rfl, ?_⟩, ⟨_, _, rfl, ?_⟩, ⟨_, _, rfl, ?_⟩⟩ <;> exact ⟨_, [], rfl, rfl⟩
    · simp only [if_neg h0, bind, Except.bind]
      obtain ⟨z, b1, b2, b3, b4⟩ := computeTimedEventually_total env.B .empty (b := b) hx ha
      obtain ⟨y, c1, c2, c3, c4⟩ := computeTimedGlobally_total env.B .empty (b := b) hx ha
      simp only [b1, c1]
      refine ⟨?_, ?_, ?_, ?_⟩
      · obtain ⟨z', w, d1, d2, d3⟩ := resize_append env.ip b2.ne s.start (max s.start (min z.endTime s.stop)) 0 (-env.B)
        obtain ⟨p, hp⟩ := front_ok d3.ne
        exact ⟨w, p.value, by simp only [d1, d2, hp], d3⟩
      · obtain ⟨z', w, d1, d2, d3⟩ := resize_append env.ip b2.ne s.start (min (z.endTime - b + a) s.stop) 0 env.B
        obtain ⟨p, hp⟩ := front_ok d3.ne
        exact ⟨w, p.value, by simp only [d1, d2, hp], d3⟩
      · obtain ⟨z', w, d1, d2, d3⟩ := resize_append env.ip c2.ne s.start (min (y.endTime - b + a) s.stop) 0 (-env.B)
        obtain ⟨p, hp⟩ := front_ok d3.ne
        exact ⟨w, p.value, by simp only [d1, d2, hp], d3⟩
      · obtain ⟨z', w, d1, d2, d3⟩ := resize_append env.ip c2.ne s.start (max s.start (min y.endTime s.stop)) 0 env.B
        obtain ⟨p, hp⟩ := front_ok d3.ne
        exact ⟨w, p.value, by simp only [d1, d2, hp], d3⟩
  induction T with
  | atom s k l r =>
    intro S E hE hF hT
    obtain ⟨z, l', r', v, h1, h2⟩ := atom_lft hD hsem hne hE hF (P := []) (Or.inr hT)
    obtain ⟨⟨s1, s2, s3, s4, s5⟩, _⟩ := h2
    constructor
    · obtain ⟨w, w1, w2⟩ : ∃ w, Tr.defaultLow env { s with z := z } = .ok w ∧ Hd w := by
        unfold Tr.defaultLow
        by_cases h : z.endTime < s.start
        · rw [if_pos h, append_empty _ (by rw [s3]; rfl)]
          exact ⟨_, rfl, _, [], rfl, rfl⟩
        · rw [if_neg h]; exact ⟨_, rfl, s5⟩
      obtain ⟨p, hp⟩ := front_ok w2.ne
      exact ⟨.atom { s with z := z, zlow := w } k l' r', p.value,
        by simp only [Tr.computeLow, h1, bind, Except.bind, Tr.st, w1, hp, Tr.setSt], w2⟩
    · obtain ⟨w, w1, w2⟩ : ∃ w, Tr.defaultUp env { s with z := z } = .ok w ∧ Hd w := by
        unfold Tr.defaultUp
        by_cases h : z.endTime < s.start
        · rw [if_pos h, append_empty _ (by rw [s4]; rfl)]
          exact ⟨_, rfl, _, [], rfl, rfl⟩
        · rw [if_neg h]; exact ⟨_, rfl, s5⟩
      obtain ⟨p, hp⟩ := front_ok w2.ne
      exact ⟨.atom { s with z := z, zup := w } k l' r', p.value,
        by simp only [Tr.computeUp, h1, bind, Except.bind, Tr.st, w1, hp, Tr.setSt], w2⟩
  | not s c ih =>
    intro S E hE hF hT
    obtain ⟨⟨c1, v1, l1, l2⟩, ⟨c2, v2, u1, u2⟩⟩ := ih hE hF hT.2
    obtain ⟨p, hp⟩ := front_ok (Hd_not u2).ne
    obtain ⟨q, hq⟩ := front_ok (Hd_not l2).ne
    exact ⟨⟨.not { s with zlow := computeNot c2.st.zup } c2, p.value,
      by simp only [Tr.computeLow, u1, bind, Except.bind, if_neg u2.ne, hp], Hd_not u2⟩,
      ⟨.not { s with zup := computeNot c1.st.zlow } c1, q.value,
      by simp only [Tr.computeUp, l1, bind, Except.bind, if_neg l2.ne, hq], Hd_not l2⟩⟩
  | and s l r ih1 ih2 =>
    intro S E hE hF hT
    obtain ⟨⟨c1, v1, l1, l2⟩, ⟨c2, v2, u1, u2⟩⟩ := ih1 hE hF.1 hT.2.1
    obtain ⟨⟨d1, w1, m1, m2⟩, ⟨d2, w2, t1, t2⟩⟩ := ih2 hE hF.2 hT.2.2
    constructor
    · obtain ⟨z, a1, a2, _⟩ := computeAndM_total l2 m2
      obtain ⟨z', w, b1, b2, b3⟩ := resize_append env.ip a2.ne s.start
        (min c1.st.zlow.endTime d1.st.zlow.endTime) (-env.B) (-env.B)
      obtain ⟨p, hp⟩ := front_ok b3.ne
      exact ⟨.and { s with zlow := w } c1 d1, p.value,
        by simp only [Tr.computeLow, l1, m1, bind, Except.bind, Tr.andLow, a1, b1, b2, hp], b3⟩
    · obtain ⟨z, a1, a2, _⟩ := computeAndM_total u2 t2
      obtain ⟨z', w, b1, b2, b3⟩ := resize_append env.ip a2.ne s.start z.endTime env.B env.B
      obtain ⟨p, hp⟩ := front_ok b3.ne
      exact ⟨.and { s with zup := w } c2 d2, p.value,
        by simp only [Tr.computeUp, u1, t1, bind, Except.bind, Tr.andUp, a1, b1, b2, hp], b3⟩
  | or s l r ih1 ih2 =>
    intro S E hE hF hT
    obtain ⟨⟨c1, v1, l1, l2⟩, ⟨c2, v2, u1, u2⟩⟩ := ih1 hE hF.1 hT.2.1
    obtain ⟨⟨d1, w1, m1, m2⟩, ⟨d2, w2, t1, t2⟩⟩ := ih2 hE hF.2 hT.2.2
    constructor
    · obtain ⟨z, a1, a2, _⟩ := computeOrM_total l2 m2
      obtain ⟨z', w, b1, b2, b3⟩ := resize_append env.ip a2.ne s.start z.endTime (-env.B) (-env.B)
      obtain ⟨p, hp⟩ := front_ok b3.ne
      exact ⟨.or { s with zlow := w } c1 d1, p.value,
        by simp only [Tr.computeLow, l1, m1, bind, Except.bind, Tr.orLow, a1, b1, b2, hp], b3⟩
    · obtain ⟨z, a1, a2, _⟩ := computeOrM_total u2 t2
      obtain ⟨z', w, b1, b2, b3⟩ := resize_append env.ip a2.ne s.start
        (min c2.st.zup.endTime d2.st.zup.endTime) env.B env.B
      obtain ⟨p, hp⟩ := front_ok b3.ne
      exact ⟨.or { s with zup := w } c2 d2, p.value,
        by simp only [Tr.computeUp, u1, t1, bind, Except.bind, Tr.orUp, a1, b1, b2, hp], b3⟩
  | implies s l r ih1 ih2 =>
    intro S E hE hF hT
    obtain ⟨⟨c1, v1, l1, l2⟩, ⟨c2, v2, u1, u2⟩⟩ := ih1 hE hF.1 hT.2.1
    obtain ⟨⟨d1, w1, m1, m2⟩, ⟨d2, w2, t1, t2⟩⟩ := ih2 hE hF.2 hT.2.2
    constructor
    · obtain ⟨z, a1, a2, _⟩ := computeOrM_total (Hd_not u2) m2
      obtain ⟨z', w, b1, b2, b3⟩ := resize_append env.ip a2.ne s.start z.endTime (-env.B) (-env.B)
      obtain ⟨p, hp⟩ := front_ok b3.ne
      exact ⟨.implies { s with zlow := w } c2 d1, p.value,
        by simp only [Tr.computeLow, u1, m1, bind, Except.bind, Tr.impliesLow, a1, b1, b2, hp], b3⟩
    · obtain ⟨z, a1, a2, _⟩ := computeOrM_total (Hd_not l2) t2
      obtain ⟨z', w, b1, b2, b3⟩ := resize_append env.ip a2.ne s.start
        (min (computeNot c1.st.zlow).endTime d2.st.zup.endTime) env.B env.B
      obtain ⟨p, hp⟩ := front_ok b3.ne
      exact ⟨.implies { s with zup := w } c1 d2, p.value,
        by simp only [Tr.computeUp, l1, t1, bind, Except.bind, Tr.impliesUp, a1, b1, b2, hp], b3⟩
  | ev s I c ih =>
    intro S E hE hF hT
    obtain ⟨⟨c1, v1, l1, l2⟩, ⟨c2, v2, u1, u2⟩⟩ := ih (by linarith [hT.2.2.1]) hF.2.2 hT.2.2.2
    obtain ⟨z, v, a1, a2⟩ := (ev (s := s) (b := Tr.ivB env.params I) hT.1.2.2.1 hT.1.2.2.2.1 l2 hT.2.1).1
    obtain ⟨z', v', b1, b2⟩ := (ev (s := s) (b := Tr.ivB env.params I) hT.1.2.2.1 hT.1.2.2.2.1 u2 hT.2.1).2.1
    exact ⟨⟨.ev { s with zlow := z } I c1, v, by simp only [Tr.computeLow, l1, bind, Except.bind, a1], a2⟩,
      ⟨.ev { s with zup := z' } I c2, v', by simp only [Tr.computeUp, u1, bind, Except.bind, b1], b2⟩⟩
  | alw s I c ih =>
    intro S E hE hF hT
    obtain ⟨⟨c1, v1, l1, l2⟩, ⟨c2, v2, u1, u2⟩⟩ := ih (by linarith [hT.2.2.1]) hF.2.2 hT.2.2.2
    obtain ⟨z, v, a1, a2⟩ := (ev (s := s) (b := Tr.ivB env.params I) hT.1.2.2.1 hT.1.2.2.2.1 l2 hT.2.1).2.2.1
    obtain ⟨z', v', b1, b2⟩ := (ev (s := s) (b := Tr.ivB env.params I) hT.1.2.2.1 hT.1.2.2.2.1 u2 hT.2.1).2.2.2
    exact ⟨⟨.alw { s with zlow := z } I c1, v, by simp only [Tr.computeLow, l1, bind, Except.bind, a1], a2⟩,
      ⟨.alw { s with zup := z' } I c2, v', by simp only [Tr.computeUp, u1, bind, Except.bind, b1], b2⟩⟩
  | _ => intro _ _ _ hF; exact hF.elim

theorem leftWindows_prepare {D : List (List ℚ)} {P Q : Assoc ℚ} : ∀ (T : Tr) (s e : ℚ) {s' e' : ℚ},
    LeftWindows D Q s' e' T → LeftWindows D Q s' e' (Monitor.prepare P s e T) := by
  unfold Monitor.prepare
  intro T
  induction T with
  | atom s k l r =>
    intro S E S' E' h
    refine ⟨h.1, h.2.1, h.2.2.imp_left fun h => ?_⟩
    cases l <;> trivial
  | not _ c ih => exact fun s e _ _ h => ih s e h
  | ev _ _ c ih => exact fun s e _ _ h => ⟨h.1, ih _ _ h.2⟩
  | alw _ _ c ih => exact fun s e _ _ h => ih _ _ h
  | and _ l r h1 h2 | or _ l r h1 h2 | implies _ l r h1 h2 => exact fun s e _ _ h => ⟨h1 s e h.1, h2 s e h.2⟩
  | _ => exact fun _ _ _ _ h => h.elim

theorem run3_lft (hD : WellShaped n env.data) (hsem : env.sem = .LEFT_TIME) (hne : env.data ≠ []) {T : Tr}
    {s e : ℚ} (he : 0 ≤ e) (hF : IsFormula n env.params T) (hw : LeftWindows env.data env.params s e T) :
    ∃ x, Monitor.run3 env (Monitor.prepare env.params s e T) = .ok x := by
  have hF0 := isFormula_prepare (P := env.params) T s e hF
  have hf := fresh_prepare env.params T s e
  set T0 := Monitor.prepare env.params s e T with hT0
  obtain ⟨T1, v, a1, a2⟩ := rob_lft hD hsem hne T0 he hF0 (leftWindows_prepare T s e hw) hf
  have hF1 : IsFormula n env.params T1 := by
    rw [← isFormula_forget, Tr.forgetB_computeRob T0 a1, isFormula_forget]; exact hF0
  obtain ⟨⟨T2, lo, b1, _⟩, ⟨T2', up, c1, _⟩⟩ := lu_lft hD hsem hne T1 he hF1 a2
  obtain ⟨hS, _⟩ := rob_settles hD T0 hF0.stl hf a1
  obtain ⟨_, hk⟩ := bnd_keeps hD T1 hS (b := true) b1
  rcases seen_cases hk.seen with ⟨x, e1, _⟩ | ⟨U', V1, w, e1, e2, _⟩
  · rw [show bnd env (!true) T1 = Tr.computeUp env T1 from rfl, c1] at e1; cases e1
  · exact ⟨(V1, v, lo, w), by
      simp only [Monitor.run3, a1, b1, bind, Except.bind]
      rw [show Tr.computeUp env T2 = .ok (V1, w) from e2]⟩

end
end STLRom
