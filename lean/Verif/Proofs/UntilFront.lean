import Verif.Proofs.Front

/-!
# The first value of `until`

For continuous operands the first value of `until` is right, whatever becomes of the slopes behind it.
-/

namespace STLRom
open Signal

/-- A list, latest sample first, whose pieces follow `F` between `s` and `t`. -/
def Follows (F : ℚ → ℚ) (s : ℚ) : List Sample → ℚ → Prop
  | [], _ => False
  | i :: is, t => i.time ≤ t ∧ (∀ u, s ≤ u → i.time ≤ u → u ≤ t → i.valueAt u = F u) ∧
      (s < i.time → Follows F s is i.time)

theorem Follows.mono {F : ℚ → ℚ} {s s' : ℚ} (hs : s ≤ s') : ∀ {l : List Sample} {t : ℚ}, Follows F s l t →
    Follows F s' l t
  | [], _, h => h
  | _ :: _, _, ⟨h1, h2, h3⟩ => ⟨h1, fun u a => h2 u (hs.trans a), fun h => (h3 (lt_of_le_of_lt hs h)).mono hs⟩

theorem Follows.suffix {F : ℚ → ℚ} {s s' : ℚ} (hs : s ≤ s') {j : Sample} {rest : List Sample}
    (hj : j.time ≤ s') : ∀ {pre : List Sample} {t : ℚ}, (∀ p ∈ pre, s' < p.time) → s' ≤ t →
    Follows F s (pre ++ j :: rest) t → Follows F s (j :: rest) s'
  | [], _, _, ht, ⟨_, h2, h3⟩ => ⟨hj, fun u a b c => h2 u a b (c.trans ht), h3⟩
  | p :: pre, _, hp, _, ⟨_, _, h3⟩ => by
    have hps := hp p (by simp)
    exact Follows.suffix hs hj (fun q hq => hp q (by simp [hq])) hps.le (h3 (lt_of_le_of_lt hs hps))

/-- The list ends at or before `s`. -/
theorem Follows.split {F : ℚ → ℚ} {s : ℚ} : ∀ {l : List Sample} {t : ℚ}, Follows F s l t →
    ∃ pre j rest, l = pre ++ j :: rest ∧ (∀ p ∈ pre, s < p.time) ∧ j.time ≤ s
  | [], _, h => h.elim
  | i :: is, _, ⟨_, _, h3⟩ => by
    rcases le_or_gt i.time s with h | h
    · exact ⟨[], i, is, rfl, by simp, h⟩
    · obtain ⟨pre, j, rest, e, h1, h2⟩ := (h3 h).split
      refine ⟨i :: pre, j, rest, by rw [e]; rfl, fun p hp => ?_, h2⟩
      rcases List.mem_cons.1 hp with rfl | hp
      · exact h
      · exact h1 p hp

/-! ## Eventually -/

/-- The supremum of `F` over `[s, t]` and of `m`. -/
def Mx (F : ℚ → ℚ) (s t m v : ℚ) : Prop :=
  m ≤ v ∧ (∀ u, s ≤ u → u ≤ t → F u ≤ v) ∧ (v = m ∨ ∃ u, s ≤ u ∧ u ≤ t ∧ F u = v)

theorem Mx.step {F : ℚ → ℚ} {s r t m m' v : ℚ} (h : Mx F s r m' v) (hs : s ≤ r) (hr : r ≤ t) (h' : Mx F r t m m') :
    Mx F s t m v := by
  refine ⟨h'.1.trans h.1, fun u a b => ?_, ?_⟩
  · rcases le_total u r with hu | hu
    · exact h.2.1 u a hu
    · exact (h'.2.1 u hu b).trans h.1
  · rcases h.2.2 with e | ⟨u, a, b, c⟩
    · rcases h'.2.2 with e' | ⟨u, a, b, c⟩
      · exact .inl (e.trans e')
      · exact .inr ⟨u, hs.trans a, b, c.trans e.symm⟩
    · exact .inr ⟨u, a, b.trans hr, c⟩

theorem partialEventually_front {F : ℚ → ℚ} {s : ℚ} : ∀ (js z : List Sample) (t : ℚ) (c : Bool) (m : ℚ), s ≤ t →
    (c = true → s < t) → Follows F s js t →
    ∃ p r pre j rest, partialEventually s z js t c m = .ok (p :: r, j :: rest) ∧ js = pre ++ j :: rest ∧
      (∀ p ∈ pre, s < p.time) ∧ j.time ≤ s ∧ p.time = s ∧ (∀ q ∈ r, q ∈ z ∨ s < q.time) ∧ Mx F s t m p.value
  | [], _, _, _, _, _, _, h => h.elim
  | i :: is, z, t, c, m, ht, hc, ⟨h1, h2, h3⟩ => by
    have pend : ∀ q ∈ (if c = true then (⟨t, m, 0⟩ : Sample) :: z else z), q ∈ z ∨ s < q.time := by
      intro q hq
      cases c with
      | false => exact .inl (by simpa using hq)
      | true =>
        rcases List.mem_cons.1 (by simpa using hq) with rfl | hq
        · exact .inr (hc rfl)
        · exact .inl hq
    have add : ∀ (p : Sample) (z1 : List Sample), s < p.time → (∀ q ∈ z1, q ∈ z ∨ s < q.time) →
        ∀ q ∈ p :: z1, q ∈ z ∨ s < q.time := by
      intro p z1 h1 h2 q hq
      rcases List.mem_cons.1 hq with rfl | hq
      · exact .inr h1
      · exact h2 q hq
    have triv : ∀ q ∈ z, q ∈ z ∨ s < q.time := fun q hq => .inl hq
    -- the sup over the piece from `r`
    have up : ∀ r, s ≤ r → i.time ≤ r → r ≤ t → 0 ≤ i.derivative → Mx F r t m (max m (i.valueAt t)) := by
      intro r a b c hd
      refine ⟨le_max_left _ _, fun u d e => ?_, ?_⟩
      · rw [← h2 u (a.trans d) (b.trans d) e]
        exact (valueAt_mono hd e).trans (le_max_right _ _)
      · rcases le_total (i.valueAt t) m with h | h
        · exact .inl (max_eq_left h)
        · exact .inr ⟨t, c, le_rfl, by rw [max_eq_right h, h2 t ht h1 le_rfl]⟩
    have down : ∀ r, s ≤ r → i.time ≤ r → r ≤ t → i.derivative ≤ 0 → Mx F r t m (max m (i.valueAt r)) := by
      intro r a b c hd
      refine ⟨le_max_left _ _, fun u d e => ?_, ?_⟩
      · rw [← h2 u (a.trans d) (b.trans d) e]
        exact (valueAt_anti hd d).trans (le_max_right _ _)
      · rcases le_total (i.valueAt r) m with h | h
        · exact .inl (max_eq_left h)
        · exact .inr ⟨r, le_rfl, c, by rw [max_eq_right h, h2 r a b c]⟩
    simp only [partialEventually]
    generalize (if c = true then (⟨t, m, 0⟩ : Sample) :: z else z) = zp at pend ⊢
    by_cases h0 : s < i.time
    · rw [if_pos h0]
      have go : ∀ (z1 : List Sample) (c1 : Bool) (m1 : ℚ), (∀ q ∈ z1, q ∈ z ∨ s < q.time) → Mx F i.time t m m1 →
          ∃ p r pre j rest, partialEventually s z1 is i.time c1 m1 = .ok (p :: r, j :: rest) ∧
            i :: is = pre ++ j :: rest ∧ (∀ p ∈ pre, s < p.time) ∧ j.time ≤ s ∧ p.time = s ∧
            (∀ q ∈ r, q ∈ z ∨ s < q.time) ∧ Mx F s t m p.value := by
        intro z1 c1 m1 hz hm
        obtain ⟨p, r, pre, j, rest, a1, a2, a3, a4, a5, a6, a7⟩ := partialEventually_front is z1 i.time c1 m1 h0.le
          (fun _ => h0) (h3 h0)
        refine ⟨p, r, i :: pre, j, rest, a1, by rw [a2]; rfl, fun q hq => ?_, a4, a5, fun q hq => ?_,
          a7.step h0.le h1 hm⟩
        · rcases List.mem_cons.1 hq with rfl | hq
          · exact h0
          · exact a3 q hq
        · rcases a6 q hq with h | h
          · exact hz q h
          · exact .inr h
      have U := up i.time h0.le le_rfl h1
      have D := down i.time h0.le le_rfl h1
      rw [valueAt_self] at D
      split_ifs with g1 g2 g3 g4
      · exact go _ _ _ pend (by simpa [max_eq_right g2.le] using U g1)
      · exact go _ _ _ triv (by simpa [max_eq_left (not_lt.1 g2)] using U g1)
      · have hv : m ≤ i.value := by
          have := valueAt_anti (not_le.1 g1).le h1
          rw [valueAt_self] at this
          exact g3.trans this
        exact go _ _ _ (add _ _ h0 pend) (by simpa [max_eq_right hv] using D (not_le.1 g1).le)
      · exact go _ _ _ triv (by simpa [max_eq_left g4] using D (not_le.1 g1).le)
      · have hd : i.derivative ≠ 0 := (not_le.1 g1).ne
        rw [qdiv, if_neg hd]
        simp only [bind, Except.bind]
        have hpos : 0 < (m - i.value) / i.derivative :=
          div_pos_of_neg_of_neg (by linarith [not_le.1 g4]) (not_le.1 g1)
        exact go _ _ _ (add _ _ h0 (add _ _ (by simp only; linarith) triv))
          (by simpa [max_eq_right (not_le.1 g4).le] using D (not_le.1 g1).le)
    · rw [if_neg h0]
      have h0' := not_lt.1 h0
      have U := up s le_rfl h0' ht
      have D := down s le_rfl h0' ht
      have fin : ∀ (p : Sample) (z1 : List Sample), p.time = s → (∀ q ∈ z1, q ∈ z ∨ s < q.time) → Mx F s t m p.value →
          ∃ p' r pre j rest, (Except.ok (p :: z1, i :: is) : M _) = .ok (p' :: r, j :: rest) ∧
            i :: is = pre ++ j :: rest ∧ (∀ p ∈ pre, s < p.time) ∧ j.time ≤ s ∧ p'.time = s ∧
            (∀ q ∈ r, q ∈ z ∨ s < q.time) ∧ Mx F s t m p'.value :=
        fun p z1 a b c => ⟨p, z1, [], i, is, rfl, rfl, by simp, h0', a, b, c⟩
      split_ifs with g1 g2 g3 g4
      · exact fin _ _ rfl pend (by simpa [max_eq_right g2.le] using U g1)
      · exact fin _ _ rfl triv (by simpa [max_eq_left (not_lt.1 g2)] using U g1)
      · have hv : m ≤ i.valueAt s := g3.trans (valueAt_anti (not_le.1 g1).le ht)
        exact fin _ _ rfl pend (by simpa [max_eq_right hv] using D (not_le.1 g1).le)
      · exact fin _ _ rfl triv (by simpa [max_eq_left g4] using D (not_le.1 g1).le)
      · have hd : i.derivative ≠ 0 := (not_le.1 g1).ne
        rw [qdiv, if_neg hd]
        simp only [bind, Except.bind]
        have hpos : 0 < (m - i.value) / i.derivative := by
          have := valueAt_anti (not_le.1 g1).le h0'
          rw [valueAt_self] at this
          exact div_pos_of_neg_of_neg (by linarith [not_le.1 g4]) (not_le.1 g1)
        exact fin _ _ rfl (add _ _ (by simp only; linarith) triv)
          (by simpa [max_eq_right (not_le.1 g4).le] using D (not_le.1 g1).le)

/-! ## Conjunction with a piece -/

/-- Where the first sample of a list is, or else the end. -/
def hdT (e : ℚ) : List Sample → ℚ
  | [] => e
  | p :: _ => p.time

/-- A list, earliest sample first, whose pieces follow `F` up to `e`. -/
def Fwd (F : ℚ → ℚ) (e : ℚ) : List Sample → Prop
  | [] => True
  | p :: r => p.time ≤ hdT e r ∧ (∀ u, p.time ≤ u → u ≤ hdT e r → p.valueAt u = F u) ∧ Fwd F e r

theorem Fwd.follows {F : ℚ → ℚ} {s e : ℚ} : ∀ {z : List Sample}, Fwd F e z → ∀ {l}, Follows F s l (hdT e z) →
    Follows F s (z.reverse ++ l) e
  | [], _, _, hl => by simpa [hdT] using hl
  | p :: r, ⟨h1, h2, h3⟩, l, hl => by
    have := Fwd.follows h3 (l := p :: l) ⟨h1, fun u _ b c => h2 u b c, fun _ => hl⟩
    simpa using this

theorem andLoop_follows {X Y : ℚ → ℚ} {i : Sample} {e : ℚ} : ∀ (js z : List Sample) (t : ℚ) (c : Bool), i.time ≤ t →
    (∀ u, i.time ≤ u → u ≤ t → i.valueAt u = X u) → Follows Y i.time js t →
    Fwd (fun u => min (X u) (Y u)) e z → t ≤ hdT e z → (c = false → hdT e z = t) →
    (c = true → ∀ u, t ≤ u → u ≤ hdT e z → i.valueAt u = min (X u) (Y u)) →
    ∃ z' t' c' pre j rest, segmentAndLoop i z t c js = .ok (z', t', c', j :: rest) ∧ js = pre ++ j :: rest ∧
      (∀ p ∈ pre, i.time < p.time) ∧ j.time ≤ i.time ∧ i.time ≤ t' ∧ t' ≤ t ∧
      (∀ u, i.time ≤ u → u ≤ t' → j.valueAt u = Y u) ∧
      Fwd (fun u => min (X u) (Y u)) e z' ∧ t' ≤ hdT e z' ∧ (c' = false → hdT e z' = t') ∧
      (c' = true → ∀ u, t' ≤ u → u ≤ hdT e z' → i.valueAt u = min (X u) (Y u))
  | [], _, _, _, _, _, h, _, _, _, _ => h.elim
  | j :: js, z, t, c, ht, hX, ⟨h1, h2, h3⟩, hz, hte, hcf, hct => by
    by_cases h0 : i.time < j.time
    · have pend : Fwd (fun u => min (X u) (Y u)) e (if c = true then (⟨t, i.valueAt t, i.derivative⟩ : Sample) :: z else z) ∧
          hdT e (if c = true then (⟨t, i.valueAt t, i.derivative⟩ : Sample) :: z else z) = t := by
        cases c with
        | false => simpa using ⟨hz, hcf rfl⟩
        | true =>
          simp only [if_true, hdT, and_true]
          refine ⟨hte, fun u a b => ?_, hz⟩
          rw [valueAt_move]
          exact hct rfl u a b
      have go : ∀ (z1 : List Sample) (c1 : Bool), Fwd (fun u => min (X u) (Y u)) e z1 → j.time ≤ hdT e z1 →
          (c1 = false → hdT e z1 = j.time) →
          (c1 = true → ∀ u, j.time ≤ u → u ≤ hdT e z1 → i.valueAt u = min (X u) (Y u)) →
          ∃ z' t' c' pre k rest, segmentAndLoop i z1 j.time c1 js = .ok (z', t', c', k :: rest) ∧
            j :: js = pre ++ k :: rest ∧ (∀ p ∈ pre, i.time < p.time) ∧ k.time ≤ i.time ∧ i.time ≤ t' ∧ t' ≤ t ∧
            (∀ u, i.time ≤ u → u ≤ t' → k.valueAt u = Y u) ∧
            Fwd (fun u => min (X u) (Y u)) e z' ∧ t' ≤ hdT e z' ∧ (c' = false → hdT e z' = t') ∧
            (c' = true → ∀ u, t' ≤ u → u ≤ hdT e z' → i.valueAt u = min (X u) (Y u)) := by
        intro z1 c1 g1 g2 g3 g4
        obtain ⟨z', t', c', pre, k, rest, a1, a2, a3, a4, a5, a6, a7⟩ := andLoop_follows js z1 j.time c1 h0.le
          (fun u a b => hX u a (b.trans h1)) (h3 h0) g1 g2 g3 g4
        refine ⟨z', t', c', j :: pre, k, rest, a1, by rw [a2]; rfl, fun q hq => ?_, a4, a5, a6.trans h1, a7⟩
        rcases List.mem_cons.1 hq with rfl | hq
        · exact h0
        · exact a3 q hq
      -- on the piece
      have hY : ∀ u, j.time ≤ u → u ≤ t → j.valueAt u = Y u := fun u a b => h2 u (h0.le.trans a) a b
      have hX' : ∀ u, j.time ≤ u → u ≤ t → i.valueAt u = X u := fun u a b => hX u (h0.le.trans a) b
      have lowI : ∀ a b, j.time ≤ a → b ≤ t → i.valueAt a ≤ j.valueAt a → i.valueAt b ≤ j.valueAt b →
          ∀ u, a ≤ u → u ≤ b → i.valueAt u = min (X u) (Y u) := by
        intro a b ha hb h4 h5 u h6 h7
        have := valueAt_le_between h6 h7 h4 h5
        rw [← hX' u (ha.trans h6) (h7.trans hb), ← hY u (ha.trans h6) (h7.trans hb), min_eq_left this]
      have lowJ : ∀ a b, j.time ≤ a → b ≤ t → j.valueAt a ≤ i.valueAt a → j.valueAt b ≤ i.valueAt b →
          ∀ u, a ≤ u → u ≤ b → j.valueAt u = min (X u) (Y u) := by
        intro a b ha hb h4 h5 u h6 h7
        have := valueAt_le_between h6 h7 h4 h5
        rw [← hX' u (ha.trans h6) (h7.trans hb), ← hY u (ha.trans h6) (h7.trans hb), min_eq_right this]
      -- `i` stays below until the end of the known part
      have ext : ∀ a, (∀ u, a ≤ u → u ≤ t → i.valueAt u = min (X u) (Y u)) →
          ∀ u, a ≤ u → u ≤ hdT e z → i.valueAt u = min (X u) (Y u) := by
        intro a ha u h6 h7
        rcases le_total u t with h | h
        · exact ha u h6 h
        · cases c with
          | false => exact ha u h6 (h7.trans (hcf rfl).le)
          | true => exact hct rfl u h h7
      have hjs : j.valueAt j.time = j.value := valueAt_self j
      simp only [segmentAndLoop]
      rw [if_pos h0]
      generalize (if c = true then (⟨t, i.valueAt t, i.derivative⟩ : Sample) :: z else z) = zp at pend ⊢
      split_ifs with g1 g2 g3 g4 g5
      · obtain ⟨t', e1, e2, e3, e4⟩ := cross_time (i := i) (j := j) (t := t) (u := j.time)
          (.inl ⟨g1, by rw [hjs]; exact g2⟩)
        rw [min_eq_right h1] at e2
        rw [max_eq_left h1] at e3
        simp only [e1, bind, Except.bind]
        refine go _ _ ⟨e2.le, fun u a b => ?_, e3.le.trans hte, fun u a b => ?_, hz⟩ le_rfl (fun _ => rfl) (by simp)
        · exact lowJ j.time t' le_rfl e3.le (by rw [hjs]; exact g2.le) e4.ge u a b
        · rw [valueAt_move]
          exact ext t' (lowI t' t e2.le le_rfl e4.le g1.le) u a b
      · exact go _ _ hz (h1.trans hte) (by simp)
          (fun _ => ext _ (lowI j.time t le_rfl le_rfl (by rw [hjs]; exact not_lt.1 g2) g1.le))
      · refine go _ _ ⟨by rw [pend.2]; exact h1, fun u a b => ?_, pend.1⟩ le_rfl (fun _ => rfl) (by simp)
        rw [pend.2] at b
        exact lowJ j.time t le_rfl le_rfl (by rw [hjs]; exact g4.le) g3.ge u a b
      · exact go _ _ hz (h1.trans hte) (by simp)
          (fun _ => ext _ (lowI j.time t le_rfl le_rfl (by rw [hjs]; exact not_lt.1 g4) g3.le))
      · have g6 : j.valueAt t < i.valueAt t := lt_of_le_of_ne (not_lt.1 g1) (Ne.symm g3)
        obtain ⟨t', e1, e2, e3, e4⟩ := cross_time (i := i) (j := j) (t := t) (u := j.time)
          (.inr ⟨g6, by rw [hjs]; exact g5⟩)
        rw [min_eq_right h1] at e2
        rw [max_eq_left h1] at e3
        simp only [e1, bind, Except.bind]
        refine go _ _ ⟨by rw [pend.2]; exact e3.le, fun u a b => ?_, pend.1⟩ e2.le (by simp) (fun _ u a b => ?_)
        · rw [valueAt_move]
          rw [pend.2] at b
          exact lowJ t' t e2.le le_rfl e4.ge g6.le u a b
        · exact lowI j.time t' le_rfl e3.le (by rw [hjs]; exact g5.le) e4.le u a b
      · refine go _ _ ⟨by rw [pend.2]; exact h1, fun u a b => ?_, pend.1⟩ le_rfl (fun _ => rfl) (by simp)
        rw [pend.2] at b
        exact lowJ j.time t le_rfl le_rfl (by rw [hjs]; exact not_lt.1 g5) (not_lt.1 g1) u a b
    · refine ⟨z, t, c, [], j, js, ?_, rfl, by simp, not_lt.1 h0, ht, le_rfl, ?_, hz, hte, hcf, hct⟩
      · simp only [segmentAndLoop]
        rw [if_neg h0]
      · exact fun u a b => h2 u a ((not_lt.1 h0).trans a) b

theorem segmentAnd_follows {X Y : ℚ → ℚ} {i : Sample} {t : ℚ} {js : List Sample} (ht : i.time ≤ t)
    (hX : ∀ u, i.time ≤ u → u ≤ t → i.valueAt u = X u) (hY : Follows Y i.time js t) :
    ∃ p r pre j rest, segmentAnd [] i t js = .ok (p :: r, j :: rest) ∧ js = pre ++ j :: rest ∧
      (∀ p ∈ pre, i.time < p.time) ∧ j.time ≤ i.time ∧ p.time = i.time ∧
      Follows (fun u => min (X u) (Y u)) i.time (p :: r).reverse t := by
  obtain ⟨z, t', c, pre, j, rest, a1, a2, a3, a4, a5, a6, a7, hz, hte, hcf, hct⟩ := andLoop_follows (X := X) (e := t) js []
    t false ht hX hY trivial le_rfl (fun _ => rfl) (by simp)
  have pend : Fwd (fun u => min (X u) (Y u)) t (if c = true then (⟨t', i.valueAt t', i.derivative⟩ : Sample) :: z else z) ∧
      hdT t (if c = true then (⟨t', i.valueAt t', i.derivative⟩ : Sample) :: z else z) = t' := by
    cases c with
    | false => simpa using ⟨hz, hcf rfl⟩
    | true =>
      simp only [if_true, hdT, and_true]
      refine ⟨hte, fun u a b => ?_, hz⟩
      rw [valueAt_move]
      exact hct rfl u a b
  have hX' : ∀ u, i.time ≤ u → u ≤ t' → i.valueAt u = X u := fun u a b => hX u a (b.trans a6)
  have lowI : ∀ a b, i.time ≤ a → b ≤ t' → i.valueAt a ≤ j.valueAt a → i.valueAt b ≤ j.valueAt b →
      ∀ u, a ≤ u → u ≤ b → i.valueAt u = min (X u) (Y u) := by
    intro a b ha hb h4 h5 u h6 h7
    have := valueAt_le_between h6 h7 h4 h5
    rw [← hX' u (ha.trans h6) (h7.trans hb), ← a7 u (ha.trans h6) (h7.trans hb), min_eq_left this]
  have lowJ : ∀ a b, i.time ≤ a → b ≤ t' → j.valueAt a ≤ i.valueAt a → j.valueAt b ≤ i.valueAt b →
      ∀ u, a ≤ u → u ≤ b → j.valueAt u = min (X u) (Y u) := by
    intro a b ha hb h4 h5 u h6 h7
    have := valueAt_le_between h6 h7 h4 h5
    rw [← hX' u (ha.trans h6) (h7.trans hb), ← a7 u (ha.trans h6) (h7.trans hb), min_eq_right this]
  have ext : ∀ a, (∀ u, a ≤ u → u ≤ t' → i.valueAt u = min (X u) (Y u)) →
      ∀ u, a ≤ u → u ≤ hdT t z → i.valueAt u = min (X u) (Y u) := by
    intro a ha u h6 h7
    rcases le_total u t' with h | h
    · exact ha u h6 h
    · cases c with
      | false => exact ha u h6 (h7.trans (hcf rfl).le)
      | true => exact hct rfl u h h7
  have hself : i.valueAt i.time = i.value := valueAt_self i
  have fin : ∀ (p : Sample) (r : List Sample), p.time = i.time → Fwd (fun u => min (X u) (Y u)) t (p :: r) →
      ∃ p' r' pre k rest', (Except.ok (p :: r, j :: rest) : M _) = .ok (p' :: r', k :: rest') ∧ js = pre ++ k :: rest' ∧
        (∀ p ∈ pre, i.time < p.time) ∧ k.time ≤ i.time ∧ p'.time = i.time ∧
        Follows (fun u => min (X u) (Y u)) i.time (p' :: r').reverse t := by
    intro p r hp hf
    refine ⟨p, r, pre, j, rest, rfl, a2, a3, a4, hp, ?_⟩
    rw [List.reverse_cons]
    exact hf.2.2.follows ⟨hf.1, fun u _ b c => hf.2.1 u b c, fun h => absurd h (by rw [hp]; exact lt_irrefl _)⟩
  simp only [segmentAnd, a1, bind, Except.bind, segmentAndLast]
  generalize (if c = true then (⟨t', i.valueAt t', i.derivative⟩ : Sample) :: z else z) = zp at pend ⊢
  by_cases g1 : i.valueAt t' < j.valueAt t'
  · simp only [g1, if_true]
    by_cases g2 : j.valueAt i.time < i.value
    · obtain ⟨t'', e1, e2, e3, e4⟩ := cross_time (i := i) (j := j) (t := t') (u := i.time)
        (.inl ⟨g1, by rw [hself]; exact g2⟩)
      rw [min_eq_right a5] at e2
      rw [max_eq_left a5] at e3
      simp only [gt_iff_lt, g2, if_true, e1]
      refine fin _ _ rfl ⟨e2.le, fun u a b => ?_, e3.le.trans hte, fun u a b => ?_, hz⟩
      · rw [valueAt_move]
        exact lowJ i.time t'' le_rfl e3.le (by rw [hself]; exact g2.le) e4.ge u a b
      · rw [valueAt_move]
        exact ext t'' (lowI t'' t' e2.le le_rfl e4.le g1.le) u a b
    · simp only [gt_iff_lt, g2, if_false]
      exact fin _ _ rfl ⟨a5.trans hte, ext _ (lowI i.time t' le_rfl le_rfl (by rw [hself]; exact not_lt.1 g2) g1.le), hz⟩
  · simp only [g1, if_false]
    by_cases g3 : i.valueAt t' = j.valueAt t'
    · simp only [g3, if_true]
      by_cases g2 : j.valueAt i.time < i.value
      · simp only [gt_iff_lt, g2, if_true]
        refine fin _ _ rfl ⟨by rw [pend.2]; exact a5, fun u a b => ?_, pend.1⟩
        rw [valueAt_move]
        rw [pend.2] at b
        exact lowJ i.time t' le_rfl le_rfl (by rw [hself]; exact g2.le) g3.ge u a b
      · simp only [gt_iff_lt, g2, if_false]
        exact fin _ _ rfl ⟨a5.trans hte, ext _ (lowI i.time t' le_rfl le_rfl (by rw [hself]; exact not_lt.1 g2) g3.le), hz⟩
    · simp only [g3, if_false]
      have g6 : j.valueAt t' < i.valueAt t' := lt_of_le_of_ne (not_lt.1 g1) (Ne.symm g3)
      by_cases g5 : i.value < j.valueAt i.time
      · obtain ⟨t'', e1, e2, e3, e4⟩ := cross_time (i := i) (j := j) (t := t') (u := i.time)
          (.inr ⟨g6, by rw [hself]; exact g5⟩)
        rw [min_eq_right a5] at e2
        rw [max_eq_left a5] at e3
        simp only [g5, if_true, e1]
        refine fin _ _ rfl ⟨e2.le, fun u a b => ?_, by rw [pend.2]; exact e3.le, fun u a b => ?_, pend.1⟩
        · exact lowI i.time t'' le_rfl e3.le (by rw [hself]; exact g5.le) e4.le u a b
        · rw [valueAt_move]
          rw [pend.2] at b
          exact lowJ t'' t' e2.le le_rfl e4.ge g6.le u a b
      · simp only [g5, if_false]
        refine fin _ _ rfl ⟨by rw [pend.2]; exact a5, fun u a b => ?_, pend.1⟩
        rw [valueAt_move]
        rw [pend.2] at b
        exact lowJ i.time t' le_rfl le_rfl (by rw [hself]; exact not_lt.1 g5) (not_lt.1 g1) u a b

/-! ## Until -/

/-- `v` is the value of `X until Y` at `s`, with witnesses up to `e`. -/
def IsU (X Y : ℚ → ℚ) (s e v : ℚ) : Prop :=
  (∃ u, s ≤ u ∧ u ≤ e ∧ v ≤ Y u ∧ ∀ w, s ≤ w → w ≤ u → v ≤ X w) ∧
  ∀ u v', s ≤ u → u ≤ e → v' ≤ Y u → (∀ w, s ≤ w → w ≤ u → v' ≤ X w) → v' ≤ v

theorem RAt.of_follows {s : ℚ} {p : Sample} {r : List Sample} (hp : p.time = s) (hr : ∀ q ∈ r, s < q.time) :
    ∃ pre, (p :: r).reverse = pre ++ p :: [] ∧ (∀ q ∈ pre, s < q.time) ∧ p.time ≤ s ∧ p.valueAt s = p.value :=
  ⟨r.reverse, by simp, by simpa using hr, hp.le, by rw [← hp, valueAt_self]⟩

/-- The value of `until` at the begin of a piece on which the left operand falls. -/
theorem isU_fall {X Y : ℚ → ℚ} {B s t e m zm : ℚ} (hst : s ≤ t) (hte : t ≤ e)
    (hX : ∀ u w, s ≤ u → u ≤ w → w ≤ t → X w ≤ X u) (bX : ∀ u, s ≤ u → u ≤ e → -B ≤ X u)
    (bY : ∀ u, s ≤ u → u ≤ e → -B ≤ Y u) (hm : Mx (fun u => min (X u) (Y u)) s t (-B) m)
    (hz : (t = e ∧ zm = -B) ∨ IsU X Y t e zm) : IsU X Y s e (max (min zm (X t)) m) := by
  constructor
  · rcases le_total (min zm (X t)) m with h | h
    · rw [max_eq_right h]
      rcases hm.2.2 with e1 | ⟨u, a, b, c⟩
      · refine ⟨s, le_rfl, hst.trans hte, by rw [e1]; exact bY s le_rfl (hst.trans hte), fun w p q => ?_⟩
        rw [e1]; exact bX w p (q.trans (hst.trans hte))
      · refine ⟨u, a, b.trans hte, by rw [← c]; exact min_le_right _ _, fun w p q => ?_⟩
        rw [← c]
        exact (min_le_left _ _).trans (hX w u p q b)
    · rw [max_eq_left h]
      rcases hz with ⟨e1, e2⟩ | ⟨⟨u, a, b, c, d⟩, -⟩
      · refine ⟨t, hst, hte, (min_le_left _ _).trans (by rw [e2]; exact bY t hst hte), fun w p q => ?_⟩
        exact (min_le_right _ _).trans (hX w t p q le_rfl)
      · refine ⟨u, hst.trans a, b, (min_le_left _ _).trans c, fun w p q => ?_⟩
        rcases le_total w t with h' | h'
        · exact (min_le_right _ _).trans (hX w t p h' le_rfl)
        · exact (min_le_left _ _).trans (d w h' q)
  · intro u v a b c d
    rcases le_or_gt u t with h | h
    · exact (le_min (d u a le_rfl) c).trans ((hm.2.1 u a h).trans (le_max_right _ _))
    · rcases hz with ⟨e1, -⟩ | ⟨-, h2⟩
      · linarith
      · exact (le_min (h2 u v h.le b c fun w p q => d w (hst.trans p) q) (d t hst h.le)).trans (le_max_left _ _)

/-- The value of `until` at the begin of a piece on which the left operand rises. -/
theorem isU_rise {X Y : ℚ → ℚ} {B s t e m zm : ℚ} (hst : s ≤ t) (hte : t ≤ e)
    (hX : ∀ u w, s ≤ u → u ≤ w → w ≤ t → X u ≤ X w) (bX : ∀ u, s ≤ u → u ≤ e → -B ≤ X u)
    (bY : ∀ u, s ≤ u → u ≤ e → -B ≤ Y u) (hm : Mx Y s t (-B) m)
    (hz : (t = e ∧ zm = -B) ∨ IsU X Y t e zm) : IsU X Y s e (max (min (X s) zm) (min (X s) m)) := by
  constructor
  · rcases le_total (min (X s) zm) (min (X s) m) with h | h
    · rw [max_eq_right h]
      rcases hm.2.2 with e1 | ⟨u, a, b, c⟩
      · refine ⟨s, le_rfl, hst.trans hte, (min_le_right _ _).trans (by rw [e1]; exact bY s le_rfl (hst.trans hte)),
          fun w p q => (min_le_right _ _).trans ?_⟩
        rw [e1]; exact bX w p (q.trans (hst.trans hte))
      · refine ⟨u, a, b.trans hte, (min_le_right _ _).trans c.ge, fun w p q => (min_le_left _ _).trans ?_⟩
        exact hX s w le_rfl p (q.trans b)
    · rw [max_eq_left h]
      rcases hz with ⟨e1, e2⟩ | ⟨⟨u, a, b, c, d⟩, -⟩
      · refine ⟨t, hst, hte, (min_le_right _ _).trans (by rw [e2]; exact bY t hst hte), fun w p q => ?_⟩
        exact (min_le_left _ _).trans (hX s w le_rfl p q)
      · refine ⟨u, hst.trans a, b, (min_le_right _ _).trans c, fun w p q => ?_⟩
        rcases le_total w t with h' | h'
        · exact (min_le_left _ _).trans (hX s w le_rfl p h')
        · exact (min_le_right _ _).trans (d w h' q)
  · intro u v a b c d
    rcases le_or_gt u t with h | h
    · exact (le_min (d s le_rfl a) (c.trans (hm.2.1 u a h))).trans (le_max_right _ _)
    · rcases hz with ⟨e1, -⟩ | ⟨-, h2⟩
      · linarith
      · exact (le_min (d s le_rfl a) (h2 u v h.le b c fun w p q => d w (hst.trans p) q)).trans (le_max_left _ _)

theorem segmentUntil_front {X Y : ℚ → ℚ} {B t e zm : ℚ} {i : Sample} {z js : List Sample} (ht : i.time ≤ t) (hte : t ≤ e)
    (hX : ∀ u, i.time ≤ u → u ≤ t → i.valueAt u = X u) (hY : Follows Y i.time js t)
    (bX : ∀ u, i.time ≤ u → u ≤ e → -B ≤ X u) (bY : ∀ u, i.time ≤ u → u ≤ e → -B ≤ Y u)
    (hz : (t = e ∧ zm = -B) ∨ IsU X Y t e zm) :
    ∃ p r pre j rest, segmentUntil B z i t js zm = .ok (p :: r, j :: rest) ∧ js = pre ++ j :: rest ∧
      (∀ p ∈ pre, i.time < p.time) ∧ j.time ≤ i.time ∧ p.time = i.time ∧ (∀ q ∈ r, q ∈ z ∨ i.time < q.time) ∧
      IsU X Y i.time e p.value := by
  have hXs : i.value = X i.time := by rw [← hX i.time le_rfl ht, valueAt_self]
  unfold segmentUntil
  by_cases hd : i.derivative ≤ 0
  · obtain ⟨p1, r1, pre, j, rest, a1, a2, a3, a4, a5, a6⟩ := segmentAnd_follows ht hX hY
    obtain ⟨p2, r2, -, j2, rest2, b1, -, -, -, b2, b3, b4⟩ := partialEventually_front _ [] t false (-B) ht (by simp) a6
    have hr2 : ∀ q ∈ r2, i.time < q.time := fun q hq => (b3 q hq).resolve_left (by simp)
    obtain ⟨pre2, c1, c2, c3, c4⟩ := RAt.of_follows b2 hr2
    obtain ⟨p, r, d1, d2, d3, d4⟩ := segmentOr_front (i := ⟨i.time, fmin zm (i.valueAt t), 0⟩) (rest := []) (z := z) rfl
      c3 c2 ht
    refine ⟨p, r, pre, j, rest, ?_, a2, a3, a4, d2, d4, ?_⟩
    · simp only [hd, if_true, a1, bind, Except.bind, b1, c1, d1]
    · rw [d3, c4, fmin_eq, hX t ht le_rfl]
      refine isU_fall ht hte (fun u w a b c => ?_) bX bY b4 hz
      rw [← hX u a (b.trans c), ← hX w (a.trans b) c]
      exact valueAt_anti hd b
  · obtain ⟨p1, r1, pre, j, rest, a1, a2, a3, a4, a5, a6, a7⟩ := partialEventually_front _ [] t false (-B) ht (by simp) hY
    have hr1 : ∀ q ∈ r1, i.time < q.time := fun q hq => (a6 q hq).resolve_left (by simp)
    obtain ⟨pre1, c1, c2, c3, c4⟩ := RAt.of_follows a5 hr1
    obtain ⟨p2, r2, pr2, d1, -, -, d2, d3, d4⟩ := segmentAnd_front (i := i) (rest := []) (z := []) le_rfl c3 c2 ht
    obtain ⟨p3, r3, pr3, e1, -, -, e2, e3, e4⟩ := segmentAnd_front (i := i) (j := ⟨i.time, zm, 0⟩) (pre := [])
      (rest := []) (z := []) le_rfl le_rfl (by simp) ht
    have hr2 : ∀ q ∈ r2, i.time < q.time := fun q hq => (d4 q hq).resolve_left (by simp)
    have hr3 : ∀ q ∈ r3, i.time < q.time := fun q hq => (e4 q hq).resolve_left (by simp)
    obtain ⟨pre2, f1, f2, f3, f4⟩ := RAt.of_follows d2 hr2
    obtain ⟨pre3, g1, g2, g3, g4⟩ := RAt.of_follows e2 hr3
    obtain ⟨p, r, h1, h2, h3, h4⟩ := partialOr_front (z := z) (is := (p3 :: r3).reverse) (js := (p2 :: r2).reverse)
      ⟨pre3, p3, [], g1, g2, g3, g4⟩ ⟨pre2, p2, [], f1, f2, f3, f4⟩ ht
    refine ⟨p, r, pre, j, rest, ?_, a2, a3, a4, h2, h4, ?_⟩
    · rw [List.nil_append] at e1
      simp only [hd, if_false, a1, bind, Except.bind, c1, d1, e1, h1]
    · rw [h3, (d3 rfl).2, (e3 rfl).2, c4, hXs, show (⟨i.time, zm, 0⟩ : Sample).valueAt i.time = zm by simp [Sample.valueAt]]
      refine isU_rise ht hte (fun u w a b c => ?_) bX bY a7 hz
      rw [← hX u a (b.trans c), ← hX w (a.trans b) c]
      exact valueAt_mono (not_le.1 hd).le b

theorem untilLoop_front {X Y : ℚ → ℚ} {B b e : ℚ} (bX : ∀ u, b ≤ u → u ≤ e → -B ≤ X u)
    (bY : ∀ u, b ≤ u → u ≤ e → -B ≤ Y u) : ∀ (is js z : List Sample) (t zm : ℚ), b ≤ t → t ≤ e → Follows X b is t →
    Follows Y b js t → (∀ q ∈ z, b < q.time) → ((t = e ∧ zm = -B) ∨ IsU X Y t e zm) →
    ∃ p r, untilLoop B b z is js t zm = .ok (p :: r) ∧ p.time = b ∧ (∀ q ∈ r, b < q.time) ∧ IsU X Y b e p.value
  | [], _, _, _, _, _, _, h, _, _, _ => h.elim
  | i :: is, js, z, t, zm, hbt, hte, ⟨h1, h2, h3⟩, hY, hz, hu => by
    simp only [untilLoop]
    by_cases h0 : b < i.time
    · rw [if_pos h0]
      obtain ⟨p, r, pre, j, rest, a1, a2, a3, a4, a5, a6, a7⟩ := segmentUntil_front (z := z) h1 hte
        (fun u c d => h2 u (h0.le.trans c) c d) (hY.mono h0.le) (fun u c => bX u (h0.le.trans c))
        (fun u c => bY u (h0.le.trans c)) hu
      simp only [a1, bind, Except.bind]
      subst a2
      have hs := Follows.suffix h0.le a4 a3 h1 hY
      refine untilLoop_front bX bY is _ (p :: r) i.time p.value h0.le (h1.trans hte) (h3 h0) ?_ ?_ (.inr a7)
      · split_ifs with he
        · rw [← he]
          exact hs.2.2 (by rw [he]; exact h0)
        · exact hs
      · intro q hq
        rcases List.mem_cons.1 hq with rfl | hq
        · rw [a5]; exact h0
        · rcases a6 q hq with h | h
          · exact hz q h
          · exact h0.trans h
    · rw [if_neg h0]
      have h0' := not_lt.1 h0
      by_cases he : i.time = b
      · rw [if_pos he]
        obtain ⟨p, r, pre, j, rest, a1, a2, a3, a4, a5, a6, a7⟩ := segmentUntil_front (z := z) (i := i) h1 hte
          (fun u c d => h2 u (by rw [← he]; exact c) c d) (hY.mono he.ge) (fun u c => bX u (by rw [← he]; exact c))
          (fun u c => bY u (by rw [← he]; exact c)) hu
        simp only [a1, bind, Except.bind]
        rw [he] at a5 a6 a7
        exact ⟨p, r, rfl, a5, fun q hq => (a6 q hq).elim (hz q) id, a7⟩
      · rw [if_neg he]
        obtain ⟨p, r, pre, j, rest, a1, a2, a3, a4, a5, a6, a7⟩ := segmentUntil_front (z := z)
          (i := ⟨b, i.valueAt b, i.derivative⟩) hbt hte
          (fun u c d => by rw [valueAt_move]; exact h2 u c (h0'.trans c) d) hY bX bY hu
        simp only [a1, bind, Except.bind]
        exact ⟨p, r, rfl, a5, fun q hq => (a6 q hq).elim (hz q) id, a7⟩

/-! ## Signals -/

theorem follows_of {G : Pt → ℚ} {b : ℚ} : ∀ (l : List Sample) (t : ℚ), RSorted l → b < t → (∀ p ∈ l, p.time ≤ t) →
    (∀ τ, pl b ≤ τ → τ ≤ mi t → valR l τ = some (G τ)) → (∀ u, b < u → u ≤ t → G (mi u) = G (pl u)) →
    (∀ p ∈ l, p.value = G (pl p.time)) → (∃ p ∈ l, p.time ≤ b) → Follows (fun u => G (pl u)) b l t
  | [], _, _, _, _, _, _, _, h => by simp at h
  | i :: is, t, hs, hbt, hle, hv, hc, hg, hex => by
    have hs' := List.pairwise_cons.1 hs
    refine ⟨hle i (by simp), fun u a c d => ?_, fun h => ?_⟩
    · rcases d.lt_or_eq with d' | rfl
      · have := hv (pl u) (by simpa using a) (by simpa using d')
        rw [valR_cons_of_le (by simpa using c)] at this
        simpa using this
      · rcases c.lt_or_eq with c' | c'
        · have := hv (mi u) (by simpa using hbt) le_rfl
          rw [valR_cons_of_le (by simpa using c')] at this
          show i.valueAt u = G (pl u)
          rw [← hc u hbt le_rfl]
          simpa using this
        · rw [← c', valueAt_self]
          exact hg i (by simp)
    · refine follows_of is i.time hs'.2 h (fun p hp => hs'.1 p hp) (fun τ a c => ?_)
        (fun u a c => hc u a (c.trans (hle i (by simp)))) (fun p hp => hg p (by simp [hp])) ?_
      · rw [← hv τ a (c.trans (by simpa using hle i (by simp)))]
        exact (valR_cons_of_lt (lt_of_le_of_lt c (by simp))).symm
      · obtain ⟨p, hp, hpb⟩ := hex
        rcases List.mem_cons.1 hp with rfl | hp
        · linarith
        · exact ⟨p, hp, hpb⟩

/-- What the loops over a continuous signal see. -/
theorem skip_follows {x : Signal} (hx : WF0 x) (hc : CG x) {b e : ℚ} (hb : x.beginTime ≤ b) (hbe : b < e)
    (he : e ≤ x.endTime) :
    ∃ l, skip e x.samples.reverse = .ok l ∧ Follows (fun u => x.v (pl u)) b l e := by
  obtain ⟨f, l, hl, hf⟩ := hx.exists_cons
  have hfm : f ∈ x.samples.reverse := by simp [hl]
  obtain ⟨l', a1, -, a2, a3, a4, a5, a6⟩ := skip_spec (e := e) (rsorted_reverse.2 hx.sorted)
    ⟨f, hfm, by linarith⟩
  refine ⟨l', a1, follows_of l' e a2 hbe (fun p hp => (a3 p hp).le) (fun τ h1 h2 => ?_) (fun u h1 h2 => ?_) (fun p hp => ?_)
    ⟨f, a5 f hfm (by linarith), by linarith⟩⟩
  · rw [a6 τ h2, ← val_eq_valR]
    exact hx.val (le_trans (by simpa using hb) h1)
  · exact hc.cts u (lt_of_le_of_lt hb h1) (h2.trans he)
  · exact hc.vc p (by simpa using a4 p hp)

/-- A signal whose last sample at or before its begin time has the value `v` there. -/
def FAt (x : Signal) (b v : ℚ) : Prop := x.beginTime = b ∧ RAt b v x.samples.reverse

/-- A signal with one sample at its begin time, the first one. -/
def Fst (x : Signal) (b v : ℚ) : Prop :=
  x.beginTime = b ∧ ∃ p r, x.samples = p :: r ∧ p.time = b ∧ p.value = v ∧ ∀ q ∈ r, b < q.time

theorem Fst.fAt {x : Signal} {b v : ℚ} (h : Fst x b v) : FAt x b v := by
  obtain ⟨h1, p, r, h2, h3, h4, h5⟩ := h
  exact ⟨h1, r.reverse, p, [], by simp [h2], by simpa using h5, h3.le, by rw [← h4, ← h3, valueAt_self]⟩

theorem FAt.of_wf0 {x : Signal} (h : WF0 x) : FAt x x.beginTime (x.v (pl x.beginTime)) := by
  refine ⟨rfl, ?_⟩
  have hv := h.val (τ := pl x.beginTime) le_rfl
  rw [val_eq_valR] at hv
  have hle : ∀ p ∈ x.samples.reverse, x.beginTime ≤ p.time := fun p hp => h.begin_le p (by simpa using hp)
  have hne : x.samples.reverse ≠ [] := by simpa using h.ne
  generalize x.v (pl x.beginTime) = v at hv ⊢
  generalize x.samples.reverse = l at hv hle hne
  clear hne hle
  induction l with
  | nil => simp [valR] at hv
  | cons i l ih =>
    rcases le_or_gt i.time x.beginTime with h | h
    · refine ⟨[], i, l, rfl, by simp, h, ?_⟩
      rw [valR_cons_of_le (by simpa using h)] at hv
      simpa using hv
    · rw [valR_cons_of_lt (by simpa using h)] at hv
      obtain ⟨pre, j, rest, rfl, h1, h2, h3⟩ := ih hv
      refine ⟨i :: pre, j, rest, rfl, fun p hp => ?_, h2, h3⟩
      rcases List.mem_cons.1 hp with rfl | hp
      · exact h
      · exact h1 p hp

theorem Fst.shift {x : Signal} {b v : ℚ} (h : Fst x b v) (a : ℚ) : Fst (x.shift a) (b + a) v := by
  obtain ⟨h1, p, r, h2, h3, h4, h5⟩ := h
  refine ⟨by simp [Signal.shift, h1], { p with time := p.time + a },
    r.map fun p => { p with time := p.time + a }, by simp only [Signal.shift, h2, List.map_cons],
    by simp [h3], h4, ?_⟩
  intro q hq
  obtain ⟨q', hq', rfl⟩ := List.mem_map.1 hq
  simpa using h5 q' hq'

theorem simplifyLoop_front {b : ℚ} {p : Sample} (hp : p.time = b) : ∀ (r acc : List Sample) (n : ℕ), r.length ≤ n →
    (∀ q ∈ r, b < q.time) → ∃ acc', simplifyLoop b n (r ++ p :: acc) = .ok (p :: acc') ∧
      ∀ q ∈ acc', q ∈ acc ∨ b < q.time
  | [], acc, n, _, _ => by
    refine ⟨acc, ?_, fun q hq => .inl hq⟩
    cases n <;> simp [simplifyLoop, hp]
  | f :: r, acc, 0, h, _ => by simp at h
  | f :: r, acc, n + 1, h, hr => by
    have hf := hr f (by simp)
    have hr' : ∀ q ∈ r, b < q.time := fun q hq => hr q (by simp [hq])
    have hn : r.length ≤ n := by simpa using h
    obtain ⟨l, hl⟩ : ∃ l, (f :: (r ++ p :: acc)).getLast? = some l := by
      rw [← Option.isSome_iff_exists]; simp
    simp only [List.cons_append, simplifyLoop, if_neg hf.ne', hl]
    split_ifs with h0
    · obtain ⟨acc', a1, a2⟩ := simplifyLoop_front hp r (acc ++ [f]) n hn hr'
      refine ⟨acc', by rw [← a1]; simp, fun q hq => ?_⟩
      rcases a2 q hq with h | h
      · rcases List.mem_append.1 h with h | h
        · exact .inl h
        · rw [List.mem_singleton.1 h]; exact .inr hf
      · exact .inr h
    · exact simplifyLoop_front hp r acc n hn hr'

theorem simplify_front {x : Signal} {b v : ℚ} (h : Fst x b v) :
    ∃ z, simplify x = .ok z ∧ z.endTime = x.endTime ∧ Fst z b v := by
  obtain ⟨h1, p, r, h2, h3, h4, h5⟩ := h
  obtain ⟨acc, a1, a2⟩ := simplifyLoop_front h3 r [] (r.length + 1) (by omega) h5
  have a2' : ∀ q ∈ acc, b < q.time := fun q hq => (a2 q hq).resolve_left (by simp)
  obtain ⟨l, hl⟩ : ∃ l, (p :: acc).getLast? = some l := by
    rw [← Option.isSome_iff_exists]; simp
  simp only [simplify, h2, h1, a1, bind, Except.bind, hl]
  split_ifs with h0
  · have hbl : b ≤ l.time := by
      rcases List.mem_cons.1 (List.mem_of_getLast? hl) with h | h
      · rw [h, h3]
      · exact (a2' l h).le
    refine ⟨_, rfl, rfl, rfl, p, acc ++ [⟨x.endTime, l.valueAt x.endTime, 0⟩], rfl, h3, h4, fun q hq => ?_⟩
    rcases List.mem_append.1 hq with h | h
    · exact a2' q h
    · rw [List.mem_singleton.1 h]; exact hbl.trans_lt h0
  · exact ⟨_, rfl, rfl, rfl, p, acc, rfl, h3, h4, a2'⟩

theorem skip_front {b v e : ℚ} (hbe : b < e) : ∀ {l : List Sample}, RAt b v l → ∃ l', skip e l = .ok l' ∧
    skipGuarded e l = .ok l' ∧ RAt b v l'
  | [], ⟨pre, j, rest, h, _⟩ => by simp at h
  | p :: l, ⟨pre, j, rest, h, h1, h2, h3⟩ => by
    by_cases hp : e ≤ p.time
    · cases pre with
      | nil =>
        obtain ⟨rfl, -⟩ := List.cons.inj h
        linarith
      | cons q pre =>
        obtain ⟨rfl, h'⟩ := List.cons.inj h
        obtain ⟨l', a1, a2, a3⟩ := skip_front hbe (l := l) ⟨pre, j, rest, h', fun q hq => h1 q (by simp [hq]), h2, h3⟩
        refine ⟨l', by simp only [skip, if_pos hp, a1], ?_, a3⟩
        cases l with
        | nil => simp at h'
        | cons q' l => simp only [skipGuarded, if_pos hp, a2]
    · refine ⟨p :: l, by simp only [skip, if_neg hp], ?_, pre, j, rest, h, h1, h2, h3⟩
      cases l with
      | nil => rfl
      | cons q' l => simp only [skipGuarded, if_neg hp]

/-- `compute_and` of two signals that begin at `b`. -/
theorem computeAnd_front {x y : Signal} {b v w : ℚ} (hx : FAt x b v) (hy : FAt y b w)
    (hbe : b < min x.endTime y.endTime) :
    ∃ z, computeAnd x y = .ok z ∧ z.endTime = min x.endTime y.endTime ∧ Fst z b (min v w) := by
  obtain ⟨is, a1, -, pre, i, rest, a3, a4, a5, a6⟩ := skip_front hbe hx.2
  obtain ⟨js, b1, -, b3⟩ := skip_front hbe hy.2
  obtain ⟨p, r, c1, c2, c3, c4⟩ := partialAnd_front (rest := rest) a5 pre [] js _ a4 b3 hbe.le
  obtain ⟨z, d1, d2, d3⟩ := simplify_front (x := ⟨p :: r, b, min x.endTime y.endTime⟩) (b := b) (v := min v w)
    ⟨rfl, p, r, rfl, c2, by rw [c3, a6], fun q hq => (c4 q hq).resolve_left (by simp)⟩
  refine ⟨z, ?_, d2, d3⟩
  unfold computeAnd
  simp only [fmax_eq, fmin_eq, hx.1, hy.1, max_self, a1, b1, bind, Except.bind, a3, c1, d1]

theorem computeUntil_front {B : ℚ} {x y : Signal} {b e : ℚ} (hx : WF0 x) (hy : WF0 y) (cx : CG x) (cy : CG y)
    (hb : max x.beginTime y.beginTime = b) (he : min x.endTime y.endTime = e) (hbe : b < e)
    (bX : ∀ u, b ≤ u → u ≤ e → -B ≤ x.v (pl u)) (bY : ∀ u, b ≤ u → u ≤ e → -B ≤ y.v (pl u)) :
    ∃ z v, computeUntil B x y = .ok z ∧ z.endTime = e ∧ Fst z b v ∧
      IsU (fun u => x.v (pl u)) (fun u => y.v (pl u)) b e v := by
  obtain ⟨is, a1, a2⟩ := skip_follows hx cx (b := b) (hb ▸ le_max_left _ _) hbe (he ▸ min_le_left _ _)
  obtain ⟨js, b1, b2⟩ := skip_follows hy cy (b := b) (hb ▸ le_max_right _ _) hbe (he ▸ min_le_right _ _)
  obtain ⟨p, r, c1, c2, c3, c4⟩ := untilLoop_front bX bY is js [] e (-B) hbe.le le_rfl a2 b2 (by simp) (.inl ⟨rfl, rfl⟩)
  obtain ⟨z, d1, d2, d3⟩ := simplify_front (x := ⟨p :: r, b, e⟩) (b := b) (v := p.value)
    ⟨rfl, p, r, rfl, c2, rfl, c3⟩
  refine ⟨z, p.value, ?_, d2, d3, c4⟩
  simp only [computeUntil, fmax_eq, fmin_eq, hb, he, a1, b1, c1, bind, Except.bind, d1]

/-- A signal that begins with the value `v`, and has only that value at its begin time. -/
def Lead (x : Signal) (t v : ℚ) : Prop := x.beginTime = t ∧ t ≤ x.endTime ∧
  (∃ p r, x.samples = p :: r ∧ p.time = t) ∧ ∀ q ∈ x.samples, t ≤ q.time ∧ (q.time = t → q.value = v)

theorem Fst.lead {x : Signal} {t v : ℚ} (h : Fst x t v) (he : t ≤ x.endTime) : Lead x t v := by
  obtain ⟨h1, p, r, h2, h3, h4, h5⟩ := h
  refine ⟨h1, he, ⟨p, r, h2, h3⟩, fun q hq => ?_⟩
  rw [h2] at hq
  rcases List.mem_cons.1 hq with rfl | hq
  · exact ⟨h3.ge, fun _ => h4⟩
  · exact ⟨(h5 q hq).le, fun h => absurd h (h5 q hq).ne'⟩

theorem Lead.front {x : Signal} {t v : ℚ} (h : Lead x t v) : ∃ p, x.front = .ok p ∧ p.value = v := by
  obtain ⟨_, _, ⟨p, r, h2, h3⟩, h4⟩ := h
  exact ⟨p, by simp [Signal.front, h2], (h4 p (by simp [h2])).2 h3⟩

theorem Lead.not {x : Signal} {t v : ℚ} (h : Lead x t v) : Lead (computeNot x) t (-v) := by
  obtain ⟨h1, he, ⟨p, r, h2, h3⟩, h4⟩ := h
  refine ⟨h1, he, ⟨p.neg, negs r, by rw [computeNot_samples, h2]; rfl, by simpa using h3⟩, fun q hq => ?_⟩
  rw [computeNot_samples] at hq
  obtain ⟨q', hq', rfl⟩ := List.mem_map.1 hq
  refine ⟨by simpa using (h4 q' hq').1, fun hh => ?_⟩
  rw [Sample.neg_value, (h4 q' hq').2 (by simpa using hh)]

theorem rAt_lead {t v : ℚ} : ∀ {l : List Sample}, l ≠ [] →
    (∀ q ∈ l, t ≤ q.time ∧ (q.time = t → q.value = v)) → (∀ p, l.getLast? = some p → p.time = t) → RAt t v l
  | [], h, _, _ => absurd rfl h
  | p :: l, _, h2, h3 => by
    rcases (h2 p (by simp)).1.eq_or_lt with h | h
    · exact ⟨[], p, l, rfl, by simp, h.ge, by rw [h, valueAt_self]; exact (h2 p (by simp)).2 h.symm⟩
    · have hl : l ≠ [] := by
        rintro rfl
        exact h.ne' (h3 p (by simp))
      obtain ⟨pre, j, rest, rfl, k1, k2, k3⟩ := rAt_lead hl (fun q hq => h2 q (by simp [hq]))
        (fun q hq => h3 q (by rw [List.getLast?_cons_of_ne_nil hl]; exact hq))
      refine ⟨p :: pre, j, rest, rfl, fun q hq => ?_, k2, k3⟩
      rcases List.mem_cons.1 hq with rfl | hq
      · exact h
      · exact k1 q hq

theorem skipGuarded_suffix (e : ℚ) : ∀ {l : List Sample}, l ≠ [] → ∃ a l', skipGuarded e l = .ok l' ∧ l = a ++ l' ∧ l' ≠ []
  | [], h => absurd rfl h
  | [p], _ => ⟨[], [p], rfl, rfl, by simp⟩
  | p :: q :: l, _ => by
    unfold skipGuarded
    split_ifs
    · obtain ⟨a, l', h1, h2, h3⟩ := skipGuarded_suffix e (l := q :: l) (by simp)
      exact ⟨p :: a, l', h1, by rw [h2]; rfl, h3⟩
    · exact ⟨[], _, rfl, rfl, by simp⟩

theorem Lead.skip {x : Signal} {t v : ℚ} (h : Lead x t v) (e : ℚ) :
    ∃ l, skipGuarded e x.samples.reverse = .ok l ∧ RAt t v l := by
  obtain ⟨_, _, ⟨p, r, h2, h3⟩, h4⟩ := h
  obtain ⟨a, l, k1, k2, k3⟩ := skipGuarded_suffix e (l := x.samples.reverse) (by simp [h2])
  refine ⟨l, k1, rAt_lead k3 (fun q hq => h4 q ?_) fun q hq => ?_⟩
  · have : q ∈ x.samples.reverse := by rw [k2]; simp [hq]
    simpa using this
  · have : x.samples.reverse.getLast? = some q := by
      rw [k2, List.getLast?_append_of_ne_nil _ k3]; exact hq
    rw [h2] at this
    simp at this
    rw [← this]; exact h3

/-- `compute_and` at the common begin time, which may also be the common end time. -/
theorem computeAndM_front {x y : Signal} {t v w : ℚ} (hx : Lead x t v) (hy : Lead y t w) :
    ∃ z, computeAndM x y = .ok z ∧ Lead z t (min v w) ∧ z.endTime = min x.endTime y.endTime := by
  obtain ⟨is, a1, pre, i, rest, a3, a4, a5, a6⟩ := hx.skip (min x.endTime y.endTime)
  obtain ⟨js, b1, b3⟩ := hy.skip (min x.endTime y.endTime)
  have hbe : t ≤ min x.endTime y.endTime := le_min hx.2.1 hy.2.1
  obtain ⟨p, r, c1, c2, c3, c4⟩ := partialAnd_front (rest := rest) a5 pre [] js _ a4 b3 hbe
  obtain ⟨z, d1, d2, d3⟩ := simplify_front (x := ⟨p :: r, t, min x.endTime y.endTime⟩) (b := t) (v := min v w)
    ⟨rfl, p, r, rfl, c2, by rw [c3, a6], fun q hq => (c4 q hq).resolve_left (by simp)⟩
  refine ⟨z, ?_, d3.lead (by rw [d2]; exact hbe), d2⟩
  unfold computeAndM
  simp only [fmax_eq, fmin_eq, hx.1, hy.1, max_self, a1, b1, bind, Except.bind, a3, c1, d1]

theorem computeOrM_front {x y : Signal} {t v w : ℚ} (hx : Lead x t v) (hy : Lead y t w) :
    ∃ z, computeOrM x y = .ok z ∧ Lead z t (max v w) ∧ z.endTime = min x.endTime y.endTime := by
  obtain ⟨z, h1, h2, h3⟩ := computeAndM_front hx.not hy.not
  rw [computeAndM_not] at h1
  cases h : computeOrM x y with
  | error f => rw [h] at h1; simp [Except.map] at h1
  | ok z' =>
    rw [h] at h1
    simp only [Except.map, Except.ok.injEq] at h1
    refine ⟨z', rfl, ?_, by rw [← h1] at h3; exact h3⟩
    have := h2.not
    rw [← h1, computeNot_computeNot, ← max_neg_neg, neg_neg, neg_neg] at this
    exact this

end STLRom
