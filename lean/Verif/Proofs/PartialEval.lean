import Verif.Proofs.Clip

/-!
# The bounds computed on an incomplete trace are those of the interval semantics
-/

namespace STLRom
open Signal Spec

/-! ## The last row -/

section
variable {D : List (List ℚ)} {n : ℕ}

theorem lastTime_eq (hne : D ≠ []) (hD : WellShaped n D) :
    ∃ row, D.getLast? = some row ∧ row.head? = some (lastTime D) := by
  obtain ⟨row, hr⟩ : ∃ row, D.getLast? = some row := ⟨_, List.getLast?_eq_some_getLast hne⟩
  refine ⟨row, hr, ?_⟩
  have := hD.1 row (List.mem_of_getLast? hr)
  obtain ⟨a, l, rfl⟩ := List.exists_cons_of_ne_nil (l := row) (by rintro rfl; simp at this)
  simp [lastTime, hr]

theorem rowTime_le_last (hne : D ≠ []) (hD : WellShaped n D) : ∀ row ∈ D, rowTime row ≤ lastTime D := by
  obtain ⟨last, h1, h2⟩ := lastTime_eq hne hD
  obtain ⟨l, rfl⟩ : ∃ l, D = l ++ [last] := by
    rcases List.eq_nil_or_concat D with h | ⟨l, x, h⟩
    · exact absurd h hne
    · rw [h] at h1; simp at h1; exact ⟨l, by rw [h, h1]; simp⟩
  intro row hr
  rcases List.mem_append.1 hr with hr | hr
  · have hi := hD.inc
    rw [List.map_append, List.pairwise_append] at hi
    have := hi.2.2 (rowTime row) (List.mem_map_of_mem hr) (rowTime last) (by simp)
    rw [← rowTime_of_head h2]
    exact this.le
  · rw [List.mem_singleton.1 hr, rowTime_of_head h2]

theorem rowAt_last (hne : D ≠ []) (hD : WellShaped n D) : RowAt D (lastTime D) := by
  obtain ⟨last, h1, h2⟩ := lastTime_eq hne hD
  exact ⟨last, List.mem_of_getLast? h1, h2⟩

theorem reads_all {E : ℚ} : ∀ {rows : List (List ℚ)} {t : ℚ}, t ≤ E → (∀ row ∈ rows, rowTime row ≤ E) →
    reads E t rows = rows
  | [], _, _, _ => rfl
  | row :: rows, t, ht, h => by
    rw [reads, if_pos ht, reads_all (h row (by simp)) (fun r hr => h r (by simp [hr]))]

theorem leafEnd_last {E : ℚ} (hne : D ≠ []) (hD : WellShaped n D) (hE : 0 ≤ E) (h : lastTime D ≤ E) :
    leafEnd D E = lastTime D := by
  have hr := reads_all hE (fun row hr => (rowTime_le_last hne hD row hr).trans h)
  obtain ⟨last, h1, h2⟩ := lastTime_eq hne hD
  have hl : lastRead E 0 D = lastTime D := by
    unfold lastRead
    rw [hr, h1]
    exact rowTime_of_head h2
  unfold leafEnd
  rw [hl, if_neg (not_lt.2 h)]

end

/-- What is fixed while a formula is evaluated on incomplete data. -/
structure Feed (env : Env) (n : ℕ) : Prop where
  lin : Lin env n
  sem : env.sem = .SPACE
  ne : env.data ≠ []
  big : 0 ≤ env.B

section
variable {env : Env} {n : ℕ}

/-- A formula tree after `compute_robustness` on incomplete data. -/
def PAft (env : Env) : Option ℚ → ℚ → ℚ → Tr → Prop
  | cut, S, E, .atom s k l r => S ≤ lastTime env.data →
      After env cut S (min E (lastTime env.data)) (clip (min E (lastTime env.data)) (.atom s k l r))
  | _, S, E, .not _ c => PAft env none S E c
  | _, S, E, .and _ l r | _, S, E, .or _ l r | _, S, E, .implies _ l r =>
      PAft env none S E l ∧ PAft env none S E r
  | _, S, E, .ev _ I c =>
      let a := bound env.params I.beginStr I.begin
      let b := bound env.params I.stopStr I.stop
      PAft env (some (min (min (E + b) (lastTime env.data) - a) E - b)) (S + a) (E + b) c
  | _, S, E, .alw _ I c =>
      PAft env none (S + bound env.params I.beginStr I.begin)
        (E + bound env.params I.stopStr I.stop) c
  | _, _, _, _ => False

theorem PAft.cut {S E : ℚ} {c c' : Option ℚ} {T : Tr} (h : PAft env c S E T) (hn : ¬ IsAtom T) :
    PAft env c' S E T := by
  cases T with
  | atom => exact absurd trivial hn
  | _ => exact h

theorem PAft.setZ {S E : ℚ} {c : Option ℚ} {T : Tr} {z : Signal} (h : PAft env c S E T) (hn : ¬ IsAtom T) :
    PAft env c S E (Tr.setZ z T) := by
  cases T with
  | atom => exact absurd trivial hn
  | _ => exact h

theorem min_of_known {E d a b : ℚ} (hab : a ≤ b) : min (min (E + b) d - a) E = min (d - a) E := by
  rcases le_total (E + b) d with h | h
  · rw [min_eq_left h, min_eq_right (by linarith), min_eq_right (by linarith)]
  · rw [min_eq_right h]

/-- The state after the first pass. -/
theorem part_first (hL : Feed env n) (T : Tr) : ∀ {S E : ℚ}, 0 ≤ S → S ≤ E →
    (∃ row t, env.data.head? = some row ∧ row.head? = some t ∧ t ≤ S) → IsFormula n env.params T →
    Fresh env.params S E T → AtomsOkTo env.data env.params S E T →
    AtomsWithinTo .LINEAR env.B env.data env.params S E T → ∀ T' v, Tr.computeRob env T = .ok (T', v) →
    PAft env none S E T' ∧
      (IsAtom T → IsAtom T' ∧ (S ≤ lastTime env.data → Node env.B T'.st.z S (min E (lastTime env.data)) ∧
        times T'.st.z.samples = grid env.data S (min E (lastTime env.data)))) ∧
      (IsAtom T' → IsAtom T) := by
  have hD := hL.lin.shape
  induction T with
  | atom s k l r =>
    intro S E h0 hSE hfirst hF hf hk hB T' v hrun
    set d := lastTime env.data with hd
    have hat : IsAtom T' := by
      simp only [Tr.computeRob] at hrun
      obtain ⟨⟨l', _⟩, _, hx⟩ := bind_eq_ok.1 hrun
      obtain ⟨⟨r', _⟩, _, hx⟩ := bind_eq_ok.1 hx
      obtain ⟨z, _, hx⟩ := bind_eq_ok.1 hx
      obtain ⟨p, _, hx⟩ := bind_eq_ok.1 hx
      obtain ⟨rfl, _⟩ := Prod.mk.inj (Except.ok.inj hx)
      trivial
    have key : S ≤ d → Outcome env S (min E d) (clip (min E d) (.atom s k l r)) (clip (min E d) T') v ∧
        times (clip (min E d) T').st.z.samples = grid env.data S (min E d) := by
      intro hSd
      have hSe : S ≤ min E d := le_min hSE hSd
      have hT : IsTerm l ∧ IsTerm r := ⟨hF.1.term, hF.2.term⟩
      have hfc : Fresh env.params S (min E d) (clip (min E d) (.atom s k l r)) :=
        ⟨⟨hf.1.1, rfl, hf.1.2.2⟩, fresh_clip hT.1 hf.2.1, fresh_clip hT.2 hf.2.2⟩
      have hFc : IsFormula n env.params (clip (min E d) (.atom s k l r)) := by
        rw [← isFormula_forget, clip_forget, isFormula_forget]; exact hF
      have hkc : AtomsOk env.data env.params S (min E d) (clip (min E d) (.atom s k l r)) := by
        rw [← atomsOk_forget, clip_forget, atomsOk_forget]
        refine hk.imp id fun h => ⟨h.1, h.2.1, ?_⟩
        have hrow : RowAt env.data d := rowAt_last hL.ne hD
        rcases h.2.2 with h | h | h
        · exact Or.inl (le_antisymm hSe (h ▸ min_le_left _ _))
        · obtain ⟨row, hr, ht⟩ := h
          have := rowTime_le_last hL.ne hD row hr
          rw [rowTime_of_head ht, ← hd] at this
          rw [min_eq_left this]
          exact Or.inr ⟨row, hr, ht⟩
        · rw [min_eq_right h]
          exact Or.inr hrow
      have hBc : AtomsWithin .LINEAR env.B env.data env.params S (min E d) (clip (min E d) (.atom s k l r)) := by
        rw [← atomsWithin_forget, clip_forget, atomsWithin_forget]
        intro t h1 h2
        exact hB t h1 (h2.trans (min_le_left _ _)) (h2.trans (min_le_right _ _))
      have hcov : Covers env.data S (min E d) := by
        refine ⟨hfirst, ?_⟩
        obtain ⟨row, e1, e2⟩ := lastTime_eq hL.ne hD
        exact ⟨row, _, e1, e2, min_le_right _ _⟩
      have hrun' := clip_rob (e := min E d) (rowTime_le_last hL.ne hD) (h0.trans hSd) (.atom s k l r)
        (Or.inr trivial) (by intro s' k' l' r' h; cases h; exact hT)
        ⟨stops_of_fresh hT.1 hf.2.1, stops_of_fresh hT.2 hf.2.2⟩
      rw [hrun] at hrun'
      obtain ⟨T'', v', a1, a2⟩ := atom_first hL.lin hL.sem hcov (h0.trans hSe) hSe hFc hfc hkc hBc
      rw [show Tr.atom { s with stop := min E d } k (clip (min E d) l) (clip (min E d) r)
        = clip (min E d) (.atom s k l r) from rfl] at a1
      rw [hrun'] at a1
      obtain ⟨rfl, rfl⟩ := Prod.mk.inj (Except.ok.inj a1)
      exact a2
    refine ⟨?_, fun _ => ⟨hat, fun h => ?_⟩, fun _ => trivial⟩
    · cases T' with
      | atom => exact fun h => (key h).1.after
      | _ => exact hat.elim
    · have h1 := (key h).1.node
      have h2 := (key h).2
      rw [clip_z] at h1 h2
      exact ⟨h1, h2⟩
  | not s c ih =>
    intro S E h0 hSE hfirst hF hf hk hB T' v hrun
    simp only [Tr.computeRob] at hrun
    obtain ⟨⟨c', w⟩, hc, hx⟩ := bind_eq_ok.1 hrun
    obtain ⟨p, _, hx⟩ := bind_eq_ok.1 hx
    obtain ⟨rfl, _⟩ := Prod.mk.inj (Except.ok.inj hx)
    exact ⟨(ih h0 hSE hfirst hF hf.2 hk hB c' w hc).1, fun h => h.elim, fun h => h.elim⟩
  | and s l r ih1 ih2 | or s l r ih1 ih2 | implies s l r ih1 ih2 =>
    intro S E h0 hSE hfirst hF hf hk hB T' v hrun
    simp only [Tr.computeRob] at hrun
    obtain ⟨⟨l', w1⟩, h1, hx⟩ := bind_eq_ok.1 hrun
    obtain ⟨⟨r', w2⟩, h2, hx⟩ := bind_eq_ok.1 hx
    obtain ⟨z, _, hx⟩ := bind_eq_ok.1 hx
    obtain ⟨p, _, hx⟩ := bind_eq_ok.1 hx
    obtain ⟨rfl, _⟩ := Prod.mk.inj (Except.ok.inj hx)
    exact ⟨⟨(ih1 h0 hSE hfirst hF.1 hf.2.1 hk.1 hB.1 l' w1 h1).1,
      (ih2 h0 hSE hfirst hF.2 hf.2.2 hk.2 hB.2 r' w2 h2).1⟩, fun h => h.elim, fun h => h.elim⟩
  | ev s I c ih =>
    intro S E h0 hSE hfirst hF hf hk hB T' v hrun
    obtain ⟨ha, hab, hFc⟩ := hF
    set a := bound env.params I.beginStr I.begin with hadef
    set b := bound env.params I.stopStr I.stop with hbdef
    set d := lastTime env.data with hd
    simp only [Tr.computeRob, ivA_eq, ivB_eq, ← hadef, ← hbdef] at hrun
    obtain ⟨⟨c', w⟩, hc, hx⟩ := bind_eq_ok.1 hrun
    obtain ⟨⟨z, zc⟩, hz, hx⟩ := bind_eq_ok.1 hx
    obtain ⟨p, _, hx⟩ := bind_eq_ok.1 hx
    obtain ⟨rfl, _⟩ := Prod.mk.inj (Except.ok.inj hx)
    obtain ⟨row, t, f1, f2, f3⟩ := hfirst
    obtain ⟨k1, k2, k3⟩ := ih (S := S + a) (E := E + b) (by linarith) (by linarith)
      ⟨row, t, f1, f2, by linarith⟩ hFc hf.2 hk hB c' w hc
    refine ⟨?_, fun h => h.elim, fun h => h.elim⟩
    show PAft env (some (min (min (E + b) d - a) E - b)) (S + a) (E + b) (Tr.setZ zc c')
    by_cases hat : IsAtom c'
    · cases c' with
      | atom cs k l r =>
        intro hSd
        have hN := ((k2 (k3 trivial)).2 hSd).1
        have hA := k1 hSd
        unfold Tr.evRob at hz
        obtain ⟨z1, q1, hz⟩ := bind_eq_ok.1 hz
        obtain ⟨zc', q2, hz⟩ := bind_eq_ok.1 hz
        obtain ⟨z2, q3, hz⟩ := bind_eq_ok.1 hz
        obtain ⟨_, rfl⟩ := Prod.mk.inj (Except.ok.inj hz)
        obtain ⟨z1', q4, _, _, q5⟩ := computeTimedEventually_total env.B s.z (b := b) (x := cs.z) (by
          obtain ⟨q, l, e1, e2⟩ := hN.wf.exists_cons
          exact ⟨q, l, e1, e2⟩) ha
        rw [show (Tr.atom cs k l r).st.z = cs.z from rfl] at q1 q2 hN
        rw [q4] at q1
        obtain rfl := Except.ok.inj q1
        rw [q5, hN.e, hf.1.2.1] at q2
        exact After.setZ (T := clip (min (E + b) d) (.atom cs k l r)) hA hN q2
      | _ => exact hat.elim
    · exact (k1.cut hat).setZ hat
  | alw s I c ih =>
    intro S E h0 hSE hfirst hF hf hk hB T' v hrun
    obtain ⟨ha, hab, hFc⟩ := hF
    set a := bound env.params I.beginStr I.begin with hadef
    set b := bound env.params I.stopStr I.stop with hbdef
    simp only [Tr.computeRob] at hrun
    obtain ⟨⟨c', w⟩, hc, hx⟩ := bind_eq_ok.1 hrun
    obtain ⟨z, hz, hx⟩ := bind_eq_ok.1 hx
    obtain ⟨p, _, hx⟩ := bind_eq_ok.1 hx
    obtain ⟨rfl, _⟩ := Prod.mk.inj (Except.ok.inj hx)
    obtain ⟨row, t, f1, f2, f3⟩ := hfirst
    exact ⟨(ih (S := S + a) (E := E + b) (by linarith) (by linarith)
      ⟨row, t, f1, f2, by linarith⟩ hFc hf.2 hk hB c' w hc).1, fun h => h.elim, fun h => h.elim⟩
  | _ => intro _ _ _ _ _ hF; exact hF.elim

end
end STLRom
