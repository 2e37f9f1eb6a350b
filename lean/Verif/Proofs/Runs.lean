import Verif.Proofs.TotalUntil
import Verif.Spec.Runs

/-!
# Evaluating formulas with until returns a number on covering data
-/

namespace STLRom
open Signal Spec

/-! ## Where leaves begin and end on covering data -/

section
variable {D : List (List ℚ)} {S E : ℚ}

theorem reads_cases (stop : ℚ) : ∀ (t : ℚ) (rows : List (List ℚ)),
    reads stop t rows = rows ∨ stop < lastRead stop t rows
  | t, [] => Or.inl rfl
  | t, row :: rows => by
    by_cases h : t ≤ stop
    · have hr : reads stop t (row :: rows) = row :: reads stop (rowTime row) rows := by
        simp [reads, h]
      have hl : lastRead stop t (row :: rows) = lastRead stop (rowTime row) rows := by
        unfold lastRead
        rw [hr]
        cases hc : reads stop (rowTime row) rows with
        | nil => simp
        | cons r rs => rw [List.getLast?_cons_cons]; simp [List.getLast?_eq_some_getLast]
      rw [hr, hl]
      exact (reads_cases stop (rowTime row) rows).imp (fun h => by rw [h]) id
    · refine Or.inr ?_
      simpa [lastRead, reads, h] using not_le.1 h

theorem leafEnd_covers (h : Covers D S E) : leafEnd D E = E := by
  obtain ⟨_, last, t, h1, h2, h3⟩ := h
  unfold leafEnd
  by_cases h0 : E < lastRead E 0 D
  · rw [if_pos h0]
  · rw [if_neg h0]
    rcases reads_cases E 0 D with h4 | h4
    · have : lastRead E 0 D = t := by
        unfold lastRead
        rw [h4, h1]
        exact rowTime_of_head h2
      rw [this] at h0 ⊢
      exact le_antisymm (not_lt.1 h0) h3
    · exact absurd h4 h0

theorem leafBegin_covers (h : leafEnd D E = E) (hSE : S ≤ E) : leafBegin D S E = S := by
  unfold leafBegin
  rw [h]
  split
  · rfl
  · exact le_antisymm (by assumption |> not_lt.1) hSE

theorem mem_reads {E : ℚ} : ∀ {rows : List (List ℚ)} {t : ℚ}, t ≤ E → (rows.map rowTime).Pairwise (· < ·) →
    ∀ row ∈ rows, rowTime row ≤ E → row ∈ reads E t rows
  | [], _, _, _, row, hr, _ => by simp at hr
  | q :: rows, t, ht, hD, row, hr, h => by
    rw [reads, if_pos ht]
    rcases List.mem_cons.1 hr with rfl | hr
    · simp
    · rw [List.map_cons, List.pairwise_cons] at hD
      have := hD.1 (rowTime row) (List.mem_map_of_mem hr)
      exact List.mem_cons_of_mem _ (mem_reads (this.le.trans h) hD.2 row hr h)

theorem mem_dropWhile {P : ℚ → Bool} {t : ℚ} (ht : P t = false) : ∀ {L : List ℚ}, t ∈ L → t ∈ L.dropWhile P
  | [], h => by simp at h
  | p :: L, h => by
    by_cases hp : P p
    · rw [List.dropWhile_cons_of_pos hp]
      rcases List.mem_cons.1 h with rfl | h
      · rw [ht] at hp; cases hp
      · exact mem_dropWhile ht h
    · rw [List.dropWhile_cons_of_neg hp]
      exact h

theorem mem_trimTimes {b u e t : ℚ} {L : List ℚ} (ht : t ∈ L) (h1 : u ≤ t) (h2 : t ≤ e) :
    t ∈ trimTimes b L u e := by
  unfold trimTimes
  rw [List.mem_reverse]
  refine mem_dropWhile (by simpa using h2) (List.mem_reverse.2 ?_)
  split
  · exact List.mem_cons_of_mem _ ht
  · have := mem_dropWhile (P := fun t => decide (t < u)) (by simpa using h1) ht
    generalize L.dropWhile (fun t => decide (t < u)) = M at this
    cases M with
    | nil => simp at this
    | cons p r =>
      simp only
      split
      · exact List.mem_cons_of_mem _ this
      · exact this

theorem mem_leafTimes (hD : (D.map rowTime).Pairwise (· < ·)) (hne : D ≠ []) (hE : 0 ≤ E) (hSE : S ≤ E)
    (he : leafEnd D E = E) (h : S = E ∨ RowAt D E) : E ∈ leafTimes D S E := by
  rcases h with rfl | ⟨row, hr, ht⟩
  · have := (leafTimes_grid (S := S) hD hne hE).head
    rw [leafBegin_covers he le_rfl] at this
    exact List.mem_of_head? this
  · have : E ∈ (reads E 0 D).map rowTime := by
      have h1 := rowTime_of_head ht
      have h2 := List.mem_map_of_mem (f := rowTime) (mem_reads hE hD row hr h1.le)
      rwa [h1] at h2
    exact mem_trimTimes this (by rw [leafBegin_covers he hSE]; exact hSE) he.ge

end

section
variable {env : Env} {n : ℕ} {S E : ℚ}

theorem ETot.ends (hD : WellShaped n env.data) (hne : env.data ≠ []) (hE : 0 ≤ E) (hSE : S ≤ E) {T : Tr}
    (h : ETot env.data S E T) (he : leafEnd env.data E = E) (hr : IsLeaf T ∨ S = E ∨ RowAt env.data E) :
    T.st.z.endTime = E := by
  have hs := h.st hD hne hE
  rcases hr with hl | hr
  · cases T with
    | sig | const => exact h.2.2.e.trans he
    | _ => exact hl.elim
  · exact le_antisymm (hs.hi.trans he.le) (hs.le _ (mem_leafTimes hD.inc hne hE hSE he hr))

/-! ## Comparisons -/

/-- A formula with `until` after the first run on covering data. -/
def COk (D : List (List ℚ)) (P : Assoc ℚ) : ℚ → ℚ → Tr → Prop
  | S, E, .atom s k l r => TOk D P S E (.atom s k l r) ∧ s.z.endTime = E ∧ leafEnd D E = E ∧
    (IsLeaf l ∨ S = E ∨ RowAt D E)
  | S, E, .not s c => StAny S E s ∧ COk D P S E c
  | S, E, .and s l r | S, E, .or s l r | S, E, .implies s l r => StAny S E s ∧ COk D P S E l ∧ COk D P S E r
  | S, E, .ev s I c | S, E, .alw s I c => StAny S E s ∧ 0 ≤ Tr.ivA P I ∧ Tr.ivA P I ≤ Tr.ivB P I ∧
    COk D P (S + Tr.ivA P I) (E + Tr.ivB P I) c
  | S, E, .untl s l I r => StAny S E s ∧ 0 ≤ Tr.ivA P I ∧ Tr.ivA P I < Tr.ivB P I ∧
    COk D P S (E + Tr.ivB P I) l ∧ COk D P (S + Tr.ivA P I) (E + Tr.ivB P I) r ∧
    Begins S l ∧ Begins (S + Tr.ivA P I) r
  | _, _, _ => False
where
  /-- A comparison, or a negated one, whose signal was not cut at the front. -/
  Begins : ℚ → Tr → Prop
  | S, .atom s _ _ _ => s.z.beginTime = S
  | S, .not _ c => Begins S c
  | _, _ => True

theorem COk.st {D : List (List ℚ)} {P : Assoc ℚ} {T : Tr} (h : COk D P S E T) : StAny S E T.st := by
  cases T <;> first | exact h.1 | exact h.1.1 | exact h.elim

theorem COk.setZ {D : List (List ℚ)} {P : Assoc ℚ} {T : Tr} {z : Signal} (h : COk D P S E T) (hz : Hd z)
    (he : z.endTime = T.st.z.endTime) : COk D P S E (Tr.setZ z T) := by
  have st : StAny S E { T.st with z := z } := ⟨h.st.1, h.st.2.1, h.st.2.2.1, h.st.2.2.2.1, hz⟩
  cases T with
  | atom => exact ⟨h.1.setZ hz he.ge, he.trans h.2.1, h.2.2⟩
  | not | and | or | implies | ev | alw | untl => exact ⟨st, h.2⟩
  | _ => exact h.elim

theorem atom_cov (hD : WellShaped n env.data) (hsem : env.sem = .SPACE) (hne : env.data ≠ []) (hE : 0 ≤ E)
    (hSE : S ≤ E) (hend : leafEnd env.data E = E)
    {s : St} {k : Cmp} {l r : Tr} (he : IsExpr n l ∧ IsExpr n r) {P Q : Assoc ℚ}
    (hr : IsLeaf l ∨ S = E ∨ RowAt env.data E)
    (ha : Fresh P S E (.atom s k l r) ∨ COk env.data Q S E (.atom s k l r)) :
    ∃ z l' r' v, Tr.computeRob env (.atom s k l r) = .ok (.atom { s with z := z } k l' r', v) ∧
      COk env.data Q S E (.atom { s with z := z } k l' r') ∧ (∃ p, z.front = .ok p ∧ v = p.value) ∧
      (Fresh P S E (.atom s k l r) → z.beginTime = S) ∧ (COk env.data Q S E (.atom s k l r) → z = s.z) := by
  obtain ⟨l', v1, a1, a2⟩ := expr_any hD hne hE l he.1 (ha.imp (fun h => h.2.1) (fun h => h.1.2.2.1))
  obtain ⟨r', v2, b1, b2⟩ := expr_any hD hne hE r he.2 (ha.imp (fun h => h.2.2) (fun h => h.1.2.2.2))
  have a3 := a2.st hD hne hE
  have b3 := b2.st hD hne hE
  have hr' : IsLeaf l' ∨ S = E ∨ RowAt env.data E := hr.imp_left fun h => by
    rw [← isLeaf_forget, Tr.forgetB_computeRob l a1, isLeaf_forget]; exact h
  have hle := a2.ends hD hne hE hSE hend hr'
  have tt : times (comb (atomS k) l'.st.z.samples r'.st.z.samples) = leafTimes env.data S E := by
    rw [comb_times (atomS_time k) (a3.t.trans b3.t.symm), a3.t]
  obtain ⟨z, c1, c2, c3, c4⟩ : ∃ z, appendSamples env.ip s.z (comb (atomS k) l'.st.z.samples r'.st.z.samples) = .ok z ∧
      Hd z ∧ (Fresh P S E (.atom s k l r) → z.beginTime = S) ∧
      (COk env.data Q S E (.atom s k l r) → { z with endTime := l'.st.z.endTime } = s.z) := by
    have key : s.z = .empty → ∃ z, appendSamples env.ip s.z (comb (atomS k) l'.st.z.samples r'.st.z.samples) = .ok z ∧
      Hd z ∧ z.beginTime = S := by
      intro h0
      rw [h0]
      obtain ⟨z, c1, c2⟩ := op_any hD hne hE env.ip tt
      exact ⟨z, c1, c2.hd hD hne hE, c2.b.trans (leafBegin_covers hend hSE)⟩
    have key2 : COk env.data Q S E (.atom s k l r) →
        appendSamples env.ip s.z (comb (atomS k) l'.st.z.samples r'.st.z.samples) = .ok s.z ∧
        Hd s.z ∧ { s.z with endTime := l'.st.z.endTime } = s.z := by
      intro ha
      refine ⟨appendSamples_skip _ ha.1.1.2.2.2.2.ne _ fun p hp => ha.1.2.1 _ (by
        rw [← tt]; exact List.mem_map_of_mem hp), ha.1.1.2.2.2.2, ?_⟩
      rw [hle, ← ha.2.1]
    rcases ha with ha | ha
    · obtain ⟨z, c1, c2, c3⟩ := key ha.1.2.2.1
      refine ⟨z, c1, c2, fun _ => c3, fun h => ?_⟩
      have := h.1.1.2.2.2.2.ne
      rw [ha.1.2.2.1] at this
      exact absurd rfl this
    · obtain ⟨c1, c2, c3⟩ := key2 ha
      refine ⟨s.z, c1, c2, fun h => ?_, fun _ => c3⟩
      have := c2.ne
      rw [h.1.2.2.1] at this
      exact absurd rfl this
  have hz : Tr.atomRob env k s.z l'.st.z r'.st.z = .ok { z with endTime := l'.st.z.endTime } := by
    unfold Tr.atomRob
    rw [atomLoop_eq, c1, hsem]
    rfl
  have hd : Hd { z with endTime := l'.st.z.endTime } := c2
  obtain ⟨p, hp⟩ := front_ok hd.ne
  have st : s.start = S ∧ s.stop = E ∧ s.zlow = .empty ∧ s.zup = .empty := by
    rcases ha with ha | ha
    · exact ⟨ha.1.1, ha.1.2.1, ha.1.2.2.2⟩
    · exact ⟨ha.1.1.1, ha.1.1.2.1, ha.1.1.2.2.1, ha.1.1.2.2.2.1⟩
  exact ⟨{ z with endTime := l'.st.z.endTime }, l', r', p.value,
    by simp only [Tr.computeRob, a1, b1, bind, Except.bind, hz, hp],
    ⟨⟨⟨st.1, st.2.1, st.2.2.1, st.2.2.2, hd⟩, a3.le, a2, b2⟩, hle, hend, hr'⟩, ⟨p, hp, rfl⟩, c3, c4⟩

/-! ## `compute_robustness` -/

theorem Spec.Covers.mono {D : List (List ℚ)} {s e s' e' : ℚ} (h : Covers D s e) (hs : s ≤ s') (he : e' ≤ e) :
    Covers D s' e' := by
  obtain ⟨⟨r, t, h1, h2, h3⟩, ⟨r', t', k1, k2, k3⟩⟩ := h
  exact ⟨⟨r, t, h1, h2, h3.trans hs⟩, ⟨r', t', k1, k2, he.trans k3⟩⟩

theorem Spec.Covers.ne {D : List (List ℚ)} {s e : ℚ} (h : Covers D s e) : D ≠ [] := by
  obtain ⟨⟨r, t, h1, _⟩, _⟩ := h
  rintro rfl
  simp at h1

/-- `compute_robustness` of a formula with until returns on covering data. -/
theorem rob_cov (hD : WellShaped n env.data) (hsem : env.sem = .SPACE) (T : Tr) :
    ∀ {S E : ℚ}, 0 ≤ S → S ≤ E → Covers env.data S (E + reach env.params T) →
    IsUntilFormula n env.params T → AtomsReach env.data env.params S E T → Fresh env.params S E T →
    ∃ T' v, Tr.computeRob env T = .ok (T', v) ∧ COk env.data env.params S E T' ∧ COk.Begins S T' ∧
      T'.st.z.beginTime ≤ S ∧ E ≤ T'.st.z.endTime := by
  have st : ∀ {S E : ℚ} {s : St} {z : Signal}, FreshSt S E s → Hd z → StAny S E { s with z := z } :=
    fun h hz => ⟨h.1, h.2.1, h.2.2.2.1, h.2.2.2.2, hz⟩
  have fmx : ∀ {x y S : ℚ}, x ≤ S → y ≤ S → fmax x y ≤ S := by
    intro x y S hx hy
    unfold fmax; split <;> assumption
  have fmn : ∀ {x y S : ℚ}, S ≤ x → S ≤ y → S ≤ fmin x y := by
    intro x y S hx hy
    unfold fmin; split <;> assumption
  induction T with
  | atom s k l r =>
    intro S E h0 hSE hc hF hr hf
    have hc' : Covers env.data S E := hc.mono le_rfl (by simp [reach])
    obtain ⟨z, l', r', v, h1, h2, h3, h4, _⟩ := atom_cov (Q := env.params) hD hsem hc.ne (h0.trans hSE) hSE
      (leafEnd_covers hc') hF hr (Or.inl hf)
    exact ⟨_, _, h1, h2, h4 hf, (h4 hf).le, h2.2.1.ge⟩
  | not s c ih =>
    intro S E h0 hSE hc hF hr hf
    obtain ⟨c', v, a1, a2, a3, a4, a5⟩ := ih h0 hSE hc hF hr hf.2
    have hz := Hd_not a2.st.2.2.2.2
    obtain ⟨p, hp⟩ := front_ok hz.ne
    exact ⟨.not { s with z := computeNot c'.st.z } c', p.value,
      by simp only [Tr.computeRob, a1, bind, Except.bind, hp], ⟨st hf.1 hz, a2⟩, a3, a4, a5⟩
  | and s l r ih1 ih2 =>
    intro S E h0 hSE hc hF hr hf
    obtain ⟨l', v, a1, a2, a3, a4, a5⟩ := ih1 h0 hSE
      (hc.mono le_rfl (by simp only [reach]; gcongr; exact le_max_left _ _)) hF.1 hr.1 hf.2.1
    obtain ⟨r', w, b1, b2, b3, b4, b5⟩ := ih2 h0 hSE
      (hc.mono le_rfl (by simp only [reach]; gcongr; exact le_max_right _ _)) hF.2 hr.2 hf.2.2
    obtain ⟨z, c1, c2, c3, c4⟩ := computeAndM_total
      (x := { l'.st.z with endTime := max l'.st.z.endTime r'.st.z.endTime })
      (y := { r'.st.z with endTime := max l'.st.z.endTime r'.st.z.endTime }) a2.st.2.2.2.2 b2.st.2.2.2.2
    obtain ⟨p, hp⟩ := front_ok c2.ne
    exact ⟨.and { s with z := z } l' r', p.value,
      by simp only [Tr.computeRob, a1, b1, bind, Except.bind, Tr.andRob, c1, hp], ⟨st hf.1 c2, a2, b2⟩, trivial,
      by rw [show (Tr.and { s with z := z } l' r').st.z = z from rfl, c3]; exact fmx a4 b4,
      by rw [show (Tr.and { s with z := z } l' r').st.z = z from rfl, c4]; exact fmn (a5.trans (le_max_left _ _)) (a5.trans (le_max_left _ _))⟩
  | or s l r ih1 ih2 =>
    intro S E h0 hSE hc hF hr hf
    obtain ⟨l', v, a1, a2, a3, a4, a5⟩ := ih1 h0 hSE
      (hc.mono le_rfl (by simp only [reach]; gcongr; exact le_max_left _ _)) hF.1 hr.1 hf.2.1
    obtain ⟨r', w, b1, b2, b3, b4, b5⟩ := ih2 h0 hSE
      (hc.mono le_rfl (by simp only [reach]; gcongr; exact le_max_right _ _)) hF.2 hr.2 hf.2.2
    obtain ⟨z, c1, c2, c3, c4⟩ := computeOrM_total
      (x := { l'.st.z with endTime := max l'.st.z.endTime r'.st.z.endTime })
      (y := { r'.st.z with endTime := max l'.st.z.endTime r'.st.z.endTime }) a2.st.2.2.2.2 b2.st.2.2.2.2
    obtain ⟨p, hp⟩ := front_ok c2.ne
    exact ⟨.or { s with z := z } l' r', p.value,
      by simp only [Tr.computeRob, a1, b1, bind, Except.bind, Tr.orRob, c1, hp], ⟨st hf.1 c2, a2, b2⟩, trivial,
      by rw [show (Tr.or { s with z := z } l' r').st.z = z from rfl, c3]; exact fmx a4 b4,
      by rw [show (Tr.or { s with z := z } l' r').st.z = z from rfl, c4]; exact fmn (a5.trans (le_max_left _ _)) (a5.trans (le_max_left _ _))⟩
  | implies s l r ih1 ih2 =>
    intro S E h0 hSE hc hF hr hf
    obtain ⟨l', v, a1, a2, a3, a4, a5⟩ := ih1 h0 hSE
      (hc.mono le_rfl (by simp only [reach]; gcongr; exact le_max_left _ _)) hF.1 hr.1 hf.2.1
    obtain ⟨r', w, b1, b2, b3, b4, b5⟩ := ih2 h0 hSE
      (hc.mono le_rfl (by simp only [reach]; gcongr; exact le_max_right _ _)) hF.2 hr.2 hf.2.2
    obtain ⟨z, c1, c2, c3, c4⟩ := computeOrM_total (Hd_not a2.st.2.2.2.2) b2.st.2.2.2.2
    obtain ⟨p, hp⟩ := front_ok c2.ne
    exact ⟨.implies { s with z := z } l' r', p.value,
      by simp only [Tr.computeRob, a1, b1, bind, Except.bind, computeImpliesM, c1, hp], ⟨st hf.1 c2, a2, b2⟩, trivial,
      by rw [show (Tr.implies { s with z := z } l' r').st.z = z from rfl, c3]; exact fmx a4 b4,
      by rw [show (Tr.implies { s with z := z } l' r').st.z = z from rfl, c4]; exact fmn a5 b5⟩
  | ev s I c ih =>
    intro S E h0 hSE hc hF hr hf
    have ha : 0 ≤ Tr.ivA env.params I := by rw [ivA_eq]; exact hF.1
    have hab : Tr.ivA env.params I ≤ Tr.ivB env.params I := by rw [ivA_eq, ivB_eq]; exact hF.2.1
    have hb := ha.trans hab
    obtain ⟨c', v, a1, a2, a3, a4, a5⟩ := ih (S := S + Tr.ivA env.params I) (E := E + Tr.ivB env.params I)
      (by linarith) (by linarith) (hc.mono (by linarith) (by simp only [reach, ivB_eq]; linarith)) hF.2.2
      (by rw [ivA_eq, ivB_eq]; exact hr) (by rw [ivA_eq, ivB_eq]; exact hf.2)
    obtain ⟨z, b1, b2, b3, b4⟩ := computeTimedEventually_total env.B s.z (b := Tr.ivB env.params I)
      a2.st.2.2.2.2 ha
    have he : s.stop = E := hf.1.2.1
    have hm : min z.endTime s.stop = E := by rw [he, min_eq_right]; linarith
    obtain ⟨zc, c1, c2, c3, c4⟩ := resize_hd (x := c'.st.z)
      (s := min z.endTime s.stop - Tr.ivB env.params I) (t := c'.st.z.endTime) 0 a2.st.2.2.2.2.ne (by
        have := tol_pos
        linarith)
    obtain ⟨z', d1, d2, d3, d4⟩ := resize_hd (x := z) (s := s.start) (t := max s.start (min z.endTime s.stop)) 0
      b2.ne (by
        have := le_max_left s.start (min z.endTime s.stop)
        have := tol_pos
        linarith)
    obtain ⟨p, hp⟩ := front_ok d2.ne
    refine ⟨.ev { s with z := z' } I (Tr.setZ zc c'), p.value, ?_, ⟨st hf.1 d2, ha, hab, ?_⟩, trivial, ?_, ?_⟩
    · simp only [Tr.computeRob, a1, bind, Except.bind, Tr.evRob, b1, c1, d1, hp]
    · refine a2.setZ c2 ?_
      rw [c4, if_neg (by linarith)]
    · exact (d3.trans hf.1.1).le
    · show E ≤ z'.endTime
      rw [d4, if_neg (not_lt.2 (le_max_left _ _)), hm]
      exact le_max_right _ _
  | alw s I c ih =>
    intro S E h0 hSE hc hF hr hf
    have ha : 0 ≤ Tr.ivA env.params I := by rw [ivA_eq]; exact hF.1
    have hab : Tr.ivA env.params I ≤ Tr.ivB env.params I := by rw [ivA_eq, ivB_eq]; exact hF.2.1
    have hb := ha.trans hab
    obtain ⟨c', v, a1, a2, a3, a4, a5⟩ := ih (S := S + Tr.ivA env.params I) (E := E + Tr.ivB env.params I)
      (by linarith) (by linarith) (hc.mono (by linarith) (by simp only [reach, ivB_eq]; linarith)) hF.2.2
      (by rw [ivA_eq, ivB_eq]; exact hr) (by rw [ivA_eq, ivB_eq]; exact hf.2)
    obtain ⟨z, b1, b2, b3, b4⟩ := computeTimedGlobally_total env.B s.z (b := Tr.ivB env.params I)
      a2.st.2.2.2.2 ha
    have he : s.stop = E := hf.1.2.1
    have hm : min z.endTime s.stop = E := by rw [he, min_eq_right]; linarith
    obtain ⟨z', d1, d2, d3, d4⟩ := resize_hd (x := z) (s := s.start) (t := max s.start (min z.endTime s.stop)) 0
      b2.ne (by
        have := le_max_left s.start (min z.endTime s.stop)
        have := tol_pos
        linarith)
    obtain ⟨p, hp⟩ := front_ok d2.ne
    refine ⟨.alw { s with z := z' } I c', p.value, ?_, ⟨st hf.1 d2, ha, hab, a2⟩, trivial, ?_, ?_⟩
    · simp only [Tr.computeRob, a1, bind, Except.bind, Tr.alwRob, b1, d1, hp]
    · exact (d3.trans hf.1.1).le
    · show E ≤ z'.endTime
      rw [d4, if_neg (not_lt.2 (le_max_left _ _)), hm]
      exact le_max_right _ _
  | untl s l I r ih1 ih2 =>
    intro S E h0 hSE hc hF hr hf
    have ha : 0 ≤ Tr.ivA env.params I := by rw [ivA_eq]; exact hF.1
    have hab : Tr.ivA env.params I < Tr.ivB env.params I := by rw [ivA_eq, ivB_eq]; exact hF.2.1
    have hb := ha.trans hab.le
    obtain ⟨l', v, a1, a2, a3, a4, a5⟩ := ih1 (S := S) (E := E + Tr.ivB env.params I) h0 (by linarith)
      (hc.mono le_rfl (by
        simp only [reach, ivB_eq]
        have := le_max_left (reach env.params l) (reach env.params r)
        linarith)) hF.2.2.1 (by rw [ivB_eq]; exact hr.1) (by rw [ivB_eq]; exact hf.2.1)
    obtain ⟨r', w, b1, b2, b3, b4, b5⟩ := ih2 (S := S + Tr.ivA env.params I) (E := E + Tr.ivB env.params I)
      (by linarith) (by linarith) (hc.mono (by linarith) (by
        simp only [reach, ivB_eq]
        have := le_max_right (reach env.params l) (reach env.params r)
        linarith)) hF.2.2.2 (by rw [ivA_eq, ivB_eq]; exact hr.2) (by rw [ivA_eq, ivB_eq]; exact hf.2.2)
    obtain ⟨z, c1, c2, c3, c4⟩ := timedUntil_total env.B s.z a2.st.2.2.2.2 b2.st.2.2.2.2 ha hab (h0.trans hSE)
      hSE a4 a5 b4 b5
    have he : E + Tr.ivB env.params I ≤ min l'.st.z.endTime r'.st.z.endTime := le_min a5 b5
    obtain ⟨z', d1, d2, d3, d4⟩ := resize_hd (x := z) (s := 0) (t := z.endTime) 0 c2.ne (by
      have := tol_pos
      linarith)
    obtain ⟨p, hp⟩ := front_ok d2.ne
    refine ⟨.untl { s with z := z' } l' I r', p.value, ?_, ⟨st hf.1 d2, ha, hab, a2, b2, a3, b3⟩, trivial, ?_, ?_⟩
    · simp only [Tr.computeRob, a1, b1, bind, Except.bind, Tr.untilRob, c1, d1, hp]
    · exact d3.le.trans h0
    · show E ≤ z'.endTime
      rw [d4, if_neg (by linarith)]
      linarith
  | _ => intro _ _ _ _ _ hF; exact hF.elim

end
end STLRom
