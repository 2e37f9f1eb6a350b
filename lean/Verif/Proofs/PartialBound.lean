import Verif.Proofs.PartialEval

/-!
# The bounds of a formula on an incomplete trace
-/


namespace STLRom
open Signal Spec

section
variable {env : Env} {n : ℕ}

theorem known_mem {d : ℚ} {P : Assoc ℚ} (T : Tr) : ∀ {p : Bool} {S E : ℚ}, S ≤ E → IsFormula n P T →
    S ≤ known d P p S E T ∧ known d P p S E T ≤ E := by
  have hat : ∀ {S E : ℚ}, S ≤ E → S ≤ max S (min E d) ∧ max S (min E d) ≤ E :=
    fun h => ⟨le_max_left _ _, max_le h (min_le_left _ _)⟩
  induction T with
  | atom => exact fun h _ => hat h
  | not _ c ih => intro p S E h hF; exact ih (p := !p) h hF
  | and _ l r ih1 ih2 | or _ l r ih1 ih2 =>
    intro p S E h hF
    exact ⟨le_min (ih1 h hF.1).1 (ih2 h hF.2).1, (min_le_left _ _).trans (ih1 h hF.1).2⟩
  | implies _ l r ih1 ih2 =>
    intro p S E h hF
    exact ⟨le_min (ih1 h hF.1).1 (ih2 h hF.2).1, (min_le_left _ _).trans (ih1 h hF.1).2⟩
  | ev _ I c ih =>
    intro p S E h hF
    obtain ⟨ha, hab, hFc⟩ := hF
    have := ih (p := p) (S := S + bound P I.beginStr I.begin) (E := E + bound P I.stopStr I.stop)
      (by linarith) hFc
    simp only [known]
    generalize known d P p (S + bound P I.beginStr I.begin) (E + bound P I.stopStr I.stop) c = K at this
    cases p
    · exact ⟨le_max_left _ _, max_le h (min_le_left _ _)⟩
    · exact ⟨le_min h (by linarith), min_le_left _ _⟩
  | alw _ I c ih =>
    intro p S E h hF
    obtain ⟨ha, hab, hFc⟩ := hF
    have := ih (p := p) (S := S + bound P I.beginStr I.begin) (E := E + bound P I.stopStr I.stop)
      (by linarith) hFc
    simp only [known]
    generalize known d P p (S + bound P I.beginStr I.begin) (E + bound P I.stopStr I.stop) c = K at this
    cases p
    · exact ⟨le_min h (by linarith), min_le_left _ _⟩
    · exact ⟨le_max_left _ _, max_le h (min_le_left _ _)⟩
  | _ => intro _ _ _ _ hF; exact hF.elim

/-- The outcome of one of the two bound computations. -/
structure BOut (env : Env) (p : Bool) (S E : ℚ) (T T' : Tr) (v : ℚ) : Prop where
  node : Node env.B (pick p T'.st) S (known (lastTime env.data) env.params p S E T)
  is : Is (pick p T'.st) S (known (lastTime env.data) env.params p S E T)
    (robBound .LINEAR env.B env.data env.params p S E T)
  val : v = (pick p T'.st).v (pl S)
  mark : Mark env (known (lastTime env.data) env.params p S E T) T (pick p T'.st)

/-- An atom that the rows have reached. -/
theorem atom_reached (hL : Feed env n) {p : Bool} {S E : ℚ} {cut : Option ℚ} {s : St} {k : Cmp} {l r : Tr}
    (h0 : 0 ≤ S) (hSE : S ≤ E) (hd : S ≤ lastTime env.data) (hF : IsFormula n env.params (.atom s k l r))
    (hT : TOk env.data env.params S E (.atom s k l r)) (hA : PAft env cut S E (.atom s k l r))
    (hc : ∀ c, cut = some c → c ≤ min E (lastTime env.data)) :
    ∃ T' q x, bnd env p (.atom s k l r) = .ok (T', q.value) ∧ pick p T'.st = s.z ∧ s.z.front = .ok q ∧
      Node env.B x S (min E (lastTime env.data)) ∧
      Is x S (min E (lastTime env.data)) (rob .LINEAR env.data env.params (.atom s k l r)) ∧
      Cut x s.z (min E (lastTime env.data)) cut ∧
      times x.samples = grid env.data S (min E (lastTime env.data)) := by
  have hD := hL.lin.shape
  have hSe := le_min hSE hd
  have hA := hA hd
  have hFc : IsFormula n env.params (clip (min E (lastTime env.data)) (.atom s k l r)) := by
    rw [← isFormula_forget, clip_forget, isFormula_forget]; exact hF
  have hb := clip_bnd (e := min E (lastTime env.data)) (rowTime_le_last hL.ne hD) (h0.trans hd) p s k l r
    ⟨hF.1.term, hF.2.term⟩ ⟨stops_of_tot hT.2.2.1, stops_of_tot hT.2.2.2⟩
  have hx : ∃ x, Node env.B x S (min E (lastTime env.data)) ∧
      Is x S (min E (lastTime env.data)) (rob .LINEAR env.data env.params (.atom s k l r)) ∧
      Cut x s.z (min E (lastTime env.data)) cut ∧
      times x.samples = grid env.data S (min E (lastTime env.data)) := by
    obtain ⟨_, _, _, x, c1, c2, c3, c4⟩ := hA
    refine ⟨x, c1, ?_, c3, c4⟩
    have : rob .LINEAR env.data env.params (clip (min E (lastTime env.data)) (.atom s k l r)) =
        rob .LINEAR env.data env.params (.atom s k l r) := by
      rw [← rob_forget, clip_forget, rob_forget]
    rw [← this]
    exact c2
  obtain ⟨x, x1, x2, x3, x4⟩ := hx
  have run : ∃ T'' q, bnd env p (clip (min E (lastTime env.data)) (.atom s k l r)) = .ok (T'', q.value) ∧
      pick p T''.st = s.z ∧ s.z.front = .ok q := by
    cases p
    · obtain ⟨T', q, a1, a2, a3, a4⟩ := atom_up hL.lin hL.sem hL.ne (h0.trans hSe) hSe hFc hA hc
      exact ⟨T', q, a1, a3, a4⟩
    · obtain ⟨T', q, a1, a2, a3, a4⟩ := atom_low hL.lin hL.sem hL.ne (h0.trans hSe) hSe hFc hA hc
      exact ⟨T', q, a1, a3, a4⟩
  obtain ⟨T'', q, r1, r2, r3⟩ := run
  rw [r1] at hb
  generalize bnd env p (.atom s k l r) = y at hb
  cases y with
  | error => cases hb
  | ok y =>
    obtain ⟨T', v⟩ := y
    obtain ⟨rfl, rfl⟩ := Prod.mk.inj (Except.ok.inj hb)
    refine ⟨T', q, x, rfl, ?_, r3, x1, x2, x3, x4⟩
    rw [← r2]
    cases p
    · exact (clip_zup _ _).symm
    · exact (clip_zlow _ _).symm

/-- The lower bound of an atom that the rows have not reached. -/
theorem atom_unreached (hD : WellShaped n env.data) (hsem : env.sem = .SPACE)
    (hne : env.data ≠ []) {S E : ℚ} {s : St} {k : Cmp} {l r : Tr}
    (h0 : 0 ≤ S) (hSE : S ≤ E) (hd : lastTime env.data < S) (hF : IsFormula n env.params (.atom s k l r))
    (hT : TOk env.data env.params S E (.atom s k l r)) :
    ∃ T', bnd env true (.atom s k l r) = .ok (T', -env.B) ∧
      pick true T'.st = ⟨[⟨S, -env.B, 0⟩], S, S⟩ := by
  have hE := h0.trans hSE
  obtain ⟨z, l', r', v, h1, h2⟩ := atom_any hD hsem hne hE hF (P := []) (Or.inr hT)
  have hz : z.endTime < S := by
    have h1' := h1
    simp only [Tr.computeRob] at h1'
    obtain ⟨⟨l'', w1⟩, e1, hx⟩ := bind_eq_ok.1 h1'
    obtain ⟨⟨r'', w2⟩, e2, hx⟩ := bind_eq_ok.1 hx
    obtain ⟨z', e3, hx⟩ := bind_eq_ok.1 hx
    obtain ⟨q, e4, hx⟩ := bind_eq_ok.1 hx
    have hx := (Prod.mk.inj (Except.ok.inj hx)).1
    simp only [Tr.atom.injEq] at hx
    obtain ⟨hs, -, rfl, rfl⟩ := hx
    have hzz : z' = z := congrArg St.z hs
    subst hzz
    have hop := (h2.2.2.1 : ETot env.data S E l'').st hD hne hE
    have : z'.endTime = l''.st.z.endTime := by
      unfold Tr.atomRob at e3
      rw [hsem] at e3
      obtain ⟨y, _, e3⟩ := bind_eq_ok.1 e3
      simp only [Except.ok.injEq] at e3
      rw [← e3]
    rw [this]
    refine lt_of_le_of_lt hop.hi ?_
    rw [leafEnd_last hne hD hE (hd.le.trans hSE)]
    exact hd
  obtain ⟨⟨s1, s2, s3, s4, s5⟩, _⟩ := h2
  have hdl : Tr.defaultLow env { s with z := z } = .ok ⟨[⟨S, -env.B, 0⟩], S, S⟩ := by
    unfold Tr.defaultLow
    simp only at s1 s3
    rw [if_pos (by simpa only [s1] using hz), append_empty _ (by rw [s3]; rfl), s1]
  exact ⟨.atom { s with z := z, zlow := ⟨[⟨S, -env.B, 0⟩], S, S⟩ } k l' r',
    by simp only [bnd, if_true, Tr.computeLow, h1, bind, Except.bind, Tr.st, hdl, Signal.front, Tr.setSt],
    rfl⟩

theorem tol_val : tol = 1 / 10 ^ 14 := by unfold tol; norm_num

/-- The part of `ev` after its operand. -/
theorem ev_part (hB : 0 ≤ env.B) {p : Bool} {s : St} {a b S E u K : ℚ} {z : Signal} {f : ℚ → EReal}
    (hs : s.start = S ∧ s.stop = E) (h0 : 0 ≤ S) (hSE : S ≤ E) (ha : 0 ≤ a) (hab : a ≤ b)
    (hz : Node env.B z u K) (hu : u ≤ S + a) (hK : S + a ≤ K)
    (hcon : ∀ t, u ≤ t → t ≤ S + a → z.v (pl t) = z.v (pl (S + a))) (hf : Is z (S + a) K f)
    (hk : u + (b - a) < K → a < b → KeepsSlope z (u + (b - a)))
    (hedge : K < S + b → K < S + b - 1 / 10 ^ 14) :
    ∃ w v, (if p then Tr.evLow env s a b z else Tr.evUp env s a b z) = .ok (w, v) ∧
      Node env.B w S (if p then min E (K - a) else max S (min E (K - b))) ∧
      Is w S (if p then min E (K - a) else max S (min E (K - b)))
        (fun t => if p = false ∧ K < S + b then er env.B else
          ⨆ r ∈ Set.Icc (t + a) (min (t + b) K), f r) ∧
      v = w.v (pl S) := by
  cases p
  · simp only [Bool.false_eq_true, if_false, true_and]
    obtain ⟨w, h1, h2, h3⟩ := hz.ev_pre (old := s.zup) hu hK hcon hf ha hab hk
    unfold Tr.evUp
    rw [if_neg (by rw [hz.e]; linarith)]
    simp only [h1, bind, Except.bind, h2, hs.1, hs.2]
    rw [show K - a - b + a = K - b by ring]
    by_cases hKb : K < S + b
    · have := hedge hKb
      have hr : Signal.resize w S (min (K - b) E) 0 = .ok ⟨[], 0, 0⟩ := by
        unfold Signal.resize
        rw [if_pos]
        rw [tol_val]
        exact lt_of_le_of_lt (min_le_left _ _) (by linarith)
      rw [max_eq_left ((min_le_right _ _).trans (by linarith : K - b ≤ S))]
      obtain ⟨n1, n2⟩ := node_point (B := env.B) (S := S) (c := env.B) (by linarith) le_rfl
      refine ⟨⟨[⟨S, env.B, 0⟩], S, S⟩, env.B, ?_, n1, ?_, ?_⟩
      · simp only [hr, Tr.appendIfEmpty, if_true, append_empty, Signal.front]
      · simp only [if_pos hKb]; exact n2
      · exact er_inj (n2 S le_rfl le_rfl)
    · push Not at hKb
      obtain ⟨w', r1, r2, r3⟩ := h3 (min (K - b) E) (le_min (by linarith) hSE)
        ((min_le_left _ _).trans (by linarith))
      obtain ⟨q, hq, hq'⟩ := r2.front
      rw [min_comm E, max_eq_right (le_min (by linarith) hSE)]
      refine ⟨w', q.value, ?_, r2, ?_, hq'⟩
      · simp only [r1, appendIfEmpty_ne r2.wf.ne, hq]
      · simp only [if_neg (not_lt.2 hKb)]; exact r3
  · simp only [if_true, Bool.true_eq_false, false_and, if_false]
    obtain ⟨w, h1, h2, h3⟩ := hz.ev_pre (old := s.zlow) hu hK hcon hf ha hab hk
    unfold Tr.evLow
    rw [if_neg (by rw [hz.e]; linarith)]
    simp only [h1, bind, Except.bind, h2, hs.1, hs.2]
    obtain ⟨w', r1, r2, r3⟩ := h3 (min (K - a) E) (le_min (by linarith) hSE) (min_le_left _ _)
    obtain ⟨q, hq, hq'⟩ := r2.front
    rw [min_comm E, max_eq_right (le_min (by linarith) hSE)]
    refine ⟨w', q.value, ?_, r2, r3, hq'⟩
    simp only [r1, appendIfEmpty_ne r2.wf.ne, hq]

/-- The part of `alw` after its operand. -/
theorem alw_part (hB : 0 ≤ env.B) {p : Bool} {s : St} {a b S E K : ℚ} {z : Signal} {f : ℚ → EReal}
    (hs : s.start = S ∧ s.stop = E) (h0 : 0 ≤ S) (hSE : S ≤ E) (ha : 0 ≤ a) (hab : a ≤ b)
    (hz : Node env.B z (S + a) K) (hf : Is z (S + a) K f)
    (hk : S + b < K → a < b → KeepsSlope z (S + b))
    (hedge : K < S + b → K < S + b - 1 / 10 ^ 14) :
    ∃ w v, (if p then Tr.alwLow env s a b z else Tr.alwUp env s a b z) = .ok (w, v) ∧
      Node env.B w S (if p then max S (min E (K - b)) else min E (K - a)) ∧
      Is w S (if p then max S (min E (K - b)) else min E (K - a))
        (fun t => if p = true ∧ K < S + b then er (-env.B) else
          ⨅ r ∈ Set.Icc (t + a) (min (t + b) K), f r) ∧
      v = w.v (pl S) := by
  have hK := hz.le
  cases p
  · simp only [Bool.false_eq_true, if_false, false_and]
    obtain ⟨w, h1, h2, h3⟩ := hz.alw_pre (old := s.zup) hf ha hab hk
    unfold Tr.alwUp
    rw [if_neg (by rw [hz.e]; linarith)]
    simp only [h1, bind, Except.bind, h2, hs.1, hs.2]
    obtain ⟨w', r1, r2, r3⟩ := h3 (min (K - a) E) (le_min (by linarith) hSE) (min_le_left _ _)
    obtain ⟨q, hq, hq'⟩ := r2.front
    rw [min_comm E, max_eq_right (le_min (by linarith) hSE)]
    refine ⟨w', q.value, ?_, r2, r3, hq'⟩
    simp only [r1, appendIfEmpty_ne r2.wf.ne, hq]
  · simp only [if_true, true_and]
    obtain ⟨w, h1, h2, h3⟩ := hz.alw_pre (old := s.zlow) hf ha hab hk
    unfold Tr.alwLow
    rw [if_neg (by rw [hz.e]; linarith)]
    simp only [h1, bind, Except.bind, h2, hs.1, hs.2]
    rw [show K - a - b + a = K - b by ring]
    by_cases hKb : K < S + b
    · have := hedge hKb
      have hr : Signal.resize w S (min (K - b) E) 0 = .ok ⟨[], 0, 0⟩ := by
        unfold Signal.resize
        rw [if_pos]
        rw [tol_val]
        exact lt_of_le_of_lt (min_le_left _ _) (by linarith)
      rw [max_eq_left ((min_le_right _ _).trans (by linarith : K - b ≤ S))]
      obtain ⟨n1, n2⟩ := node_point (B := env.B) (S := S) (c := -env.B) le_rfl (by linarith)
      refine ⟨⟨[⟨S, -env.B, 0⟩], S, S⟩, -env.B, ?_, n1, ?_, ?_⟩
      · simp only [hr, Tr.appendIfEmpty, if_true, append_empty, Signal.front]
      · simp only [if_pos hKb]; exact n2
      · exact er_inj (n2 S le_rfl le_rfl)
    · push Not at hKb
      obtain ⟨w', r1, r2, r3⟩ := h3 (min (K - b) E) (le_min (by linarith) hSE)
        ((min_le_left _ _).trans (by linarith))
      obtain ⟨q, hq, hq'⟩ := r2.front
      rw [min_comm E, max_eq_right (le_min (by linarith) hSE)]
      refine ⟨w', q.value, ?_, r2, ?_, hq'⟩
      · simp only [r1, appendIfEmpty_ne r2.wf.ne, hq]
      · simp only [if_neg (not_lt.2 hKb)]; exact r3

/-- Both bound computations give the bounds of the interval semantics. -/
theorem bnd_part (hL : Feed env n) (T : Tr) : ∀ {p : Bool} {S E : ℚ}, 0 ≤ S → S ≤ E →
    IsFormula n env.params T → TOk env.data env.params S E T → PAft env none S E T →
    Started (lastTime env.data) env.params p S T → OffEdge (lastTime env.data) env.params p S E T →
    Uncut (lastTime env.data) env.params S E T → NoLongBound env.B env.data env.params p S E T →
    ∃ T' v, bnd env p T = .ok (T', v) ∧ BOut env p S E T T' v := by
  set d := lastTime env.data with hd
  have atom0 : ∀ {p : Bool} {S E : ℚ} {s : St} {k : Cmp} {l r : Tr}, 0 ≤ S → S ≤ E →
      IsFormula n env.params (.atom s k l r) → TOk env.data env.params S E (.atom s k l r) →
      (S ≤ d → PAft env none S E (.atom s k l r)) →
      Started d env.params p S (.atom s k l r) →
      ∃ T' v, bnd env p (.atom s k l r) = .ok (T', v) ∧ BOut env p S E (.atom s k l r) T' v := by
    intro p S E s k l r h0 hSE hF hT hA hst
    rcases le_or_gt S d with h | h
    · obtain ⟨T', q, x, a1, a2, a3, a4, a5, a6, a7⟩ := atom_reached (p := p) hL h0 hSE h hF hT (hA h) (by simp)
      have a6 : s.z = x := a6
      subst a6
      have hk : known d env.params p S E (.atom s k l r) = min E d := by
        simp only [known]; exact max_eq_right (le_min hSE h)
      obtain ⟨q', hq, hq'⟩ := a4.front
      rw [hq] at a3
      obtain rfl := Except.ok.inj a3
      refine ⟨T', _, a1, ?_, ?_, ?_, ?_⟩
      · rw [a2, ← hd, hk]; exact a4
      · rw [a2, ← hd, hk]
        intro t c e
        simp only [robBound, ← hd, if_neg (not_lt.2 h)]
        exact a5 t c e
      · rw [a2]; exact hq'
      · rw [a2, ← hd, hk]; exact .grid a7
    · obtain rfl : p = true := hst.resolve_right (not_le.2 h)
      obtain ⟨T', a1, a2⟩ := atom_unreached hL.lin.shape hL.sem hL.ne h0 hSE h hF hT
      obtain ⟨n1, n2⟩ := node_point (B := env.B) (S := S) (c := -env.B) le_rfl (by linarith [hL.big])
      have hk : known d env.params true S E (.atom s k l r) = S := by
        simp only [known]; exact max_eq_left ((min_le_right _ _).trans h.le)
      refine ⟨T', _, a1, ?_, ?_, ?_, ?_⟩
      · rw [a2, ← hd, hk]; exact n1
      · rw [a2, ← hd, hk]
        intro t c e
        simp only [robBound, ← hd, if_pos h, if_true]
        exact n2 t c e
      · rw [a2]; exact er_inj (n2 S le_rfl le_rfl)
      · rw [a2, ← hd, hk]; exact .of_end ⟨_, List.mem_singleton.2 rfl, le_rfl⟩
  induction T with
  | atom s k l r =>
    intro p S E h0 hSE hF hT hA hst _ _ _
    exact atom0 h0 hSE hF hT (fun _ => hA) hst
  | not s c ih =>
    intro p S E h0 hSE hF hT hA hst hoe huc hnl
    obtain ⟨c', v, a1, a2⟩ := ih (p := !p) h0 hSE hF hT.2 hA hst hoe huc hnl
    obtain ⟨q, hq, hq'⟩ := a2.node.not.front
    cases p
    · refine ⟨.not { s with zup := computeNot c'.st.zlow } c', q.value, ?_, a2.node.not, ?_, hq', a2.mark.not⟩
      · simp only [bnd, Bool.not_false, if_true] at a1
        have hne : c'.st.zlow.samples ≠ [] := a2.node.wf.ne
        have hq : (computeNot c'.st.zlow).front = .ok q := hq
        simp only [bnd, Bool.false_eq_true, if_false, Tr.computeUp, a1, bind, Except.bind, if_neg hne, hq]
      · exact a2.is.not
    · refine ⟨.not { s with zlow := computeNot c'.st.zup } c', q.value, ?_, a2.node.not, ?_, hq', a2.mark.not⟩
      · simp only [bnd, Bool.not_true, Bool.false_eq_true, if_false] at a1
        have hne : c'.st.zup.samples ≠ [] := a2.node.wf.ne
        have hq : (computeNot c'.st.zup).front = .ok q := hq
        simp only [bnd, if_true, Tr.computeLow, a1, bind, Except.bind, if_neg hne, hq]
      · exact a2.is.not
  | and s l r ih1 ih2 =>
    intro p S E h0 hSE hF hT hA hst hoe huc hnl
    obtain ⟨l', v1, a1, a2⟩ := ih1 (p := p) h0 hSE hF.1 hT.2.1 hA.1 hst.1 hoe.1 huc.1 hnl.1
    obtain ⟨r', v2, b1, b2⟩ := ih2 (p := p) h0 hSE hF.2 hT.2.2 hA.2 hst.2 hoe.2 huc.2 hnl.2
    obtain ⟨z, w, q, c1, c2, c3, c4, c5, c6, c7, c8⟩ := andBound2 (if p then -env.B else env.B) a2.node b2.node
    have his : Is w S (known d env.params p S E (.and s l r)) (robBound .LINEAR env.B env.data env.params p S E (.and s l r)) :=
      (a2.is.mono (min_le_left _ _)).min (b2.is.mono (min_le_right _ _)) c5
    have hs := hT.1.1
    cases p
    · simp only [bnd, pick, Bool.false_eq_true, if_false] at a1 b1 c1 c3
      refine ⟨.and { s with zup := w } l' r', q.value, ?_, c4, his, c7, .of_end c8⟩
      simp only [bnd, Bool.false_eq_true, if_false, Tr.computeUp, a1, b1, bind, Except.bind, Tr.andUp,
        c1, c2, hs, c3, appendIfEmpty_ne c4.wf.ne, c6]
    · have e1 := a2.node.e
      have e2 := b2.node.e
      simp only [bnd, pick, if_true] at a1 b1 c1 c3 e1 e2
      refine ⟨.and { s with zlow := w } l' r', q.value, ?_, c4, his, c7, .of_end c8⟩
      simp only [bnd, if_true, Tr.computeLow, a1, b1, bind, Except.bind, Tr.andLow,
        c1, e1, e2, hs, c3, appendIfEmpty_ne c4.wf.ne, c6]
  | or s l r ih1 ih2 =>
    intro p S E h0 hSE hF hT hA hst hoe huc hnl
    obtain ⟨l', v1, a1, a2⟩ := ih1 (p := p) h0 hSE hF.1 hT.2.1 hA.1 hst.1 hoe.1 huc.1 hnl.1
    obtain ⟨r', v2, b1, b2⟩ := ih2 (p := p) h0 hSE hF.2 hT.2.2 hA.2 hst.2 hoe.2 huc.2 hnl.2
    obtain ⟨z, w, q, c1, c2, c3, c4, c5, c6, c7, c8⟩ := orBound2 (if p then -env.B else env.B) a2.node b2.node
    have his : Is w S (known d env.params p S E (.or s l r)) (robBound .LINEAR env.B env.data env.params p S E (.or s l r)) :=
      (a2.is.mono (min_le_left _ _)).max (b2.is.mono (min_le_right _ _)) c5
    have hs := hT.1.1
    cases p
    · have e1 := a2.node.e
      have e2 := b2.node.e
      simp only [bnd, pick, Bool.false_eq_true, if_false] at a1 b1 c1 c3 e1 e2
      refine ⟨.or { s with zup := w } l' r', q.value, ?_, c4, his, c7, .of_end c8⟩
      simp only [bnd, Bool.false_eq_true, if_false, Tr.computeUp, a1, b1, bind, Except.bind, Tr.orUp,
        c1, e1, e2, hs, c3, appendIfEmpty_ne c4.wf.ne, c6]
    · simp only [bnd, pick, if_true] at a1 b1 c1 c3
      refine ⟨.or { s with zlow := w } l' r', q.value, ?_, c4, his, c7, .of_end c8⟩
      simp only [bnd, if_true, Tr.computeLow, a1, b1, bind, Except.bind, Tr.orLow,
        c1, c2, hs, c3, appendIfEmpty_ne c4.wf.ne, c6]
  | implies s l r ih1 ih2 =>
    intro p S E h0 hSE hF hT hA hst hoe huc hnl
    obtain ⟨l', v1, a1, a2⟩ := ih1 (p := !p) h0 hSE hF.1 hT.2.1 hA.1 hst.1 hoe.1 huc.1 hnl.1
    obtain ⟨r', v2, b1, b2⟩ := ih2 (p := p) h0 hSE hF.2 hT.2.2 hA.2 hst.2 hoe.2 huc.2 hnl.2
    obtain ⟨z, w, q, c1, c2, c3, c4, c5, c6, c7, c8⟩ :=
      orBound2 (if p then -env.B else env.B) a2.node.not b2.node
    have his : Is w S (known d env.params p S E (.implies s l r))
        (robBound .LINEAR env.B env.data env.params p S E (.implies s l r)) :=
      (a2.is.not.mono (min_le_left _ _)).max (b2.is.mono (min_le_right _ _)) c5
    have hs := hT.1.1
    cases p
    · have e1 := a2.node.not.e
      have e2 := b2.node.e
      simp only [bnd, pick, Bool.false_eq_true, if_false, Bool.not_false, if_true] at a1 b1 c1 c3 e1 e2
      refine ⟨.implies { s with zup := w } l' r', q.value, ?_, c4, his, c7, .of_end c8⟩
      simp only [bnd, Bool.false_eq_true, if_false, Tr.computeUp, a1, b1, bind, Except.bind, Tr.impliesUp,
        c1, e1, e2, hs, c3, appendIfEmpty_ne c4.wf.ne, c6]
    · simp only [bnd, pick, if_true, Bool.not_true, Bool.false_eq_true, if_false] at a1 b1 c1 c2 c3
      refine ⟨.implies { s with zlow := w } l' r', q.value, ?_, c4, his, c7, .of_end c8⟩
      simp only [bnd, if_true, Tr.computeLow, a1, b1, bind, Except.bind, Tr.impliesLow,
        c1, c2, hs, c3, appendIfEmpty_ne c4.wf.ne, c6]
  | ev s I c ih =>
    intro p S E h0 hSE hF hT hA hst hoe huc hnl
    obtain ⟨ha, hab, hFc⟩ := hF
    obtain ⟨hTs, _, _, hTc⟩ := hT
    rw [ivA_eq, ivB_eq] at hTc
    simp only [OffEdge, Uncut, NoLongBound, PAft, Started] at hoe huc hnl hA hst
    rw [← hd] at hA hnl
    set a := bound env.params I.beginStr I.begin with hadef
    set b := bound env.params I.stopStr I.stop with hbdef
    set K := known d env.params p (S + a) (E + b) c with hKdef
    have hKm := known_mem (d := d) (n := n) c (p := p) (S := S + a) (E := E + b) (by linarith) hFc
    rw [← hKdef] at hKm
    have child : ∃ c' v z u, bnd env p c = .ok (c', v) ∧ pick p c'.st = z ∧ Node env.B z u K ∧ u ≤ S + a ∧
        (∀ t, u ≤ t → t ≤ S + a → z.v (pl t) = z.v (pl (S + a))) ∧
        Is z (S + a) K (robBound .LINEAR env.B env.data env.params p (S + a) (E + b) c) ∧
        (u + (b - a) < K → a < b → KeepsSlope z (u + (b - a))) := by
      have direct : (∃ T' v, bnd env p c = .ok (T', v) ∧ BOut env p (S + a) (E + b) c T' v) →
          ∃ c' v z u, bnd env p c = .ok (c', v) ∧ pick p c'.st = z ∧ Node env.B z u K ∧ u ≤ S + a ∧
          (∀ t, u ≤ t → t ≤ S + a → z.v (pl t) = z.v (pl (S + a))) ∧
          Is z (S + a) K (robBound .LINEAR env.B env.data env.params p (S + a) (E + b) c) ∧
          (u + (b - a) < K → a < b → KeepsSlope z (u + (b - a))) := by
        rintro ⟨c', v, a1, a2⟩
        refine ⟨c', v, _, S + a, a1, rfl, a2.node, le_rfl, fun t e1 e2 => by rw [le_antisymm e2 e1], a2.is, ?_⟩
        intro e1 e2
        rw [show S + a + (b - a) = S + b by ring] at e1 ⊢
        exact a2.mark.keeps a2.node a2.is e1.le (hnl.2.1 e1 e2)
      by_cases hat : IsAtom c
      · cases c with
        | atom cs k l r =>
          rcases le_or_gt (S + a) d with h | h
          · have hKe : K = min (E + b) d := by
              rw [hKdef]; simp only [known]; exact max_eq_right (le_min (by linarith) h)
            rw [min_of_known hab] at hA
            obtain ⟨T', q, x, a1, a2, a3, a4, a5, a6, a7⟩ := atom_reached (p := p) hL (by linarith) (by linarith) h hFc
              hTc hA (by
                intro c' hc'
                obtain rfl := Option.some.inj hc'
                rw [← hd]
                exact le_min ((sub_le_self _ (ha.trans hab)).trans ((min_le_right _ _).trans (by linarith)))
                  ((sub_le_self _ (ha.trans hab)).trans ((min_le_left _ _).trans (by linarith))))
            rw [← hd, ← hKe] at a4 a5 a6 a7
            have hu := huc.2 trivial
            have hf : Is x (S + a) K (robBound .LINEAR env.B env.data env.params p (S + a) (E + b) (.atom cs k l r)) := by
              intro t e1 e2
              simp only [robBound, ← hd, if_neg (not_lt.2 h)]
              exact a5 t e1 e2
            have a6 : Signal.resize x (min (d - a) E - b) K 0 = .ok cs.z := a6
            obtain ⟨z', e1, hzN, hz1, hz2⟩ := a4.resize_any 0 (u := min (d - a) E - b) (w := K)
              (by linarith) hKm.1 le_rfl
            rw [a6] at e1
            obtain rfl := Except.ok.inj e1
            have hKl : min (d - a) E - a ≤ K := by
              rw [hKe]
              exact le_min (by linarith [min_le_right (d - a) E]) (by linarith [min_le_left (d - a) E])
            have hkx : a < b → KeepsSlope x (min (d - a) E - a) := fun e =>
              Mark.keeps (.grid a7) a4 hf hKl (hnl.2.2 trivial e)
            refine ⟨T', _, cs.z, min (d - a) E - b, a1, a2, hzN, hu, ?_⟩
            rw [show min (d - a) E - b + (b - a) = min (d - a) E - a by ring]
            rcases hu.lt_or_eq with hu' | hu'
            · obtain ⟨g1, g2, g3⟩ := hz2 hu'
              refine ⟨fun t e1 e2 => ?_, fun t e1 e2 => ?_, fun _ e => g3 rfl _ (hkx e)⟩
              · rw [g2 t e1 e2, g2 (S + a) hu'.le le_rfl]
              · rw [g1 t e1 e2]; exact hf t e1 e2
            · have g1 := hz1 hu'.ge (Or.inl (by rw [a4.b, hu']))
              have hf' : Is cs.z (S + a) K (robBound .LINEAR env.B env.data env.params p (S + a) (E + b) (.atom cs k l r)) := by
                intro t e1 e2
                rw [g1 t (hu'.trans_le e1) e2]; exact hf t e1 e2
              refine ⟨fun t e1 e2 => ?_, hf', fun _ e => ?_⟩
              · rw [le_antisymm e2 (hu' ▸ e1)]
              · exact a4.resize_keeps hu'.ge (by linarith) a6 (by linarith) (by linarith) (hkx e)
          · refine direct (atom0 (by linarith) (by linarith) hFc hTc (fun h' => absurd h' (not_le.2 h)) hst)
        | _ => exact hat.elim
      · exact direct (ih (by linarith) (by linarith) hFc hTc (hA.cut hat) hst hoe.1 huc.1 hnl.1)
    obtain ⟨c', v, z, u, c1, c2, c3, c4, c5, c6, c7⟩ := child
    obtain ⟨w, v', d1, d2, d3, d4⟩ := ev_part (p := p) hL.big ⟨hTs.1, hTs.2.1⟩ h0 hSE ha hab c3 c4 hKm.1 c5 c6 c7
      hoe.2
    have hk : known d env.params p S E (.ev s I c) = (if p then min E (K - a) else max S (min E (K - b))) := rfl
    have hr : robBound .LINEAR env.B env.data env.params p S E (.ev s I c) =
        (fun t => if p = false ∧ K < S + b then er env.B else
          ⨆ r ∈ Set.Icc (t + a) (min (t + b) K), robBound .LINEAR env.B env.data env.params p (S + a) (E + b) c r) := rfl
    rw [← hk] at d2 d3
    rw [← hr] at d3
    cases p
    · simp only [bnd, pick, Bool.false_eq_true, if_false] at c1 c2 d1
      refine ⟨.ev { s with zup := w } I c', v', ?_, d2, d3, d4, fun _ _ h => h.elim⟩
      simp only [bnd, Bool.false_eq_true, if_false, Tr.computeUp, c1, bind, Except.bind, c2, ivA_eq, ivB_eq,
        ← hadef, ← hbdef, d1]
    · simp only [bnd, pick, if_true] at c1 c2 d1
      refine ⟨.ev { s with zlow := w } I c', v', ?_, d2, d3, d4, fun _ _ h => h.elim⟩
      simp only [bnd, if_true, Tr.computeLow, c1, bind, Except.bind, c2, ivA_eq, ivB_eq,
        ← hadef, ← hbdef, d1]
  | alw s I c ih =>
    intro p S E h0 hSE hF hT hA hst hoe huc hnl
    obtain ⟨ha, hab, hFc⟩ := hF
    obtain ⟨hTs, _, _, hTc⟩ := hT
    rw [ivA_eq, ivB_eq] at hTc
    simp only [OffEdge, Uncut, NoLongBound, PAft, Started] at hoe huc hnl hA hst
    rw [← hd] at hnl
    set a := bound env.params I.beginStr I.begin with hadef
    set b := bound env.params I.stopStr I.stop with hbdef
    set K := known d env.params p (S + a) (E + b) c with hKdef
    obtain ⟨c', v, c1, c2⟩ := ih (p := p) (by linarith) (by linarith) hFc hTc hA hst hoe.1 huc hnl.1
    obtain ⟨w, v', d1, d2, d3, d4⟩ := alw_part (p := p) hL.big ⟨hTs.1, hTs.2.1⟩ h0 hSE ha hab c2.node c2.is
      (fun e1 e2 => c2.mark.keeps c2.node c2.is e1.le (hnl.2 e1 e2)) hoe.2
    have hk : known d env.params p S E (.alw s I c) = (if p then max S (min E (K - b)) else min E (K - a)) := rfl
    have hr : robBound .LINEAR env.B env.data env.params p S E (.alw s I c) =
        (fun t => if p = true ∧ K < S + b then er (-env.B) else
          ⨅ r ∈ Set.Icc (t + a) (min (t + b) K), robBound .LINEAR env.B env.data env.params p (S + a) (E + b) c r) := rfl
    rw [← hk] at d2
    rw [← hr] at d3
    cases p
    · simp only [bnd, pick, Bool.false_eq_true, if_false] at c1 d1
      refine ⟨.alw { s with zup := w } I c', v', ?_, d2, d3, d4, fun _ _ h => h.elim⟩
      simp only [bnd, Bool.false_eq_true, if_false, Tr.computeUp, c1, bind, Except.bind, ivA_eq, ivB_eq,
        ← hadef, ← hbdef, d1]
    · simp only [bnd, pick, if_true] at c1 d1
      refine ⟨.alw { s with zlow := w } I c', v', ?_, d2, d3, d4, fun _ _ h => h.elim⟩
      simp only [bnd, if_true, Tr.computeLow, c1, bind, Except.bind, ivA_eq, ivB_eq,
        ← hadef, ← hbdef, d1]
  | _ => intro _ _ _ _ _ hF; exact hF.elim

end
end STLRom
