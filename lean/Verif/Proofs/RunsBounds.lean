import Verif.Proofs.Runs

/-!
# The bounds of formulas with until return a number on covering data
-/

namespace STLRom
open Signal Spec

/-- `resize` of an empty signal yields one sample of value 0. -/
theorem Signal.resize_none {x : Signal} {s t : ℚ} (v : ℚ) (hx : x.samples = []) (hb : x.beginTime ≤ s)
    (h : s - tol ≤ t) : ∃ z, resize x s t v = .ok z ∧ Hd z := by
  have h1 : resizeFront x s = .ok ⟨[⟨s, 0, 0⟩], x.beginTime, if x.endTime < s then s else x.endTime⟩ := by
    unfold resizeFront
    rw [if_neg (not_lt.2 hb), hx]
    simp [trimFront, Sample.zero, Sample.valueAt]
  unfold resize
  rw [if_neg (not_lt.2 h)]
  simp only [h1, bind, Except.bind]
  generalize ht : (if t < s then s else t) = t'
  have hst : s ≤ t' := by
    rw [← ht]; split
    · exact le_rfl
    · rename_i h; exact not_lt.1 h
  generalize (if x.endTime < s then s else x.endTime) = e
  unfold resizeBack
  simp only [bind, Except.bind]
  by_cases h4 : e < t'
  · rw [if_pos h4]
    simp only [List.getLast?_singleton]
    by_cases h5 : (0 : ℚ) ≠ v ∨ (0 : ℚ) ≠ 0
    · simp only [if_pos h5]
      exact ⟨_, rfl, ⟨⟨s, 0, 0⟩, [⟨e, v, 0⟩], by simp, rfl⟩⟩
    · simp only [if_neg h5]
      exact ⟨_, rfl, ⟨⟨s, 0, 0⟩, [], by simp, rfl⟩⟩
  · rw [if_neg h4]
    obtain ⟨l', h5, _⟩ := trimBack_head (t := t') (p := ⟨s, 0, 0⟩) (l := []) hst
    simp only [h5]
    exact ⟨_, rfl, ⟨⟨s, 0, 0⟩, l', by simp, rfl⟩⟩

section
variable {env : Env} {n : ℕ} {S E : ℚ}

theorem resize_append_none (ip : Interpol) {x : Signal} (hx : x.samples = []) {s : ℚ} (hb : x.beginTime ≤ s)
    (t v c : ℚ) : ∃ z w, resize x s t v = .ok z ∧ Tr.appendIfEmpty ip z s c = .ok w ∧ Hd w := by
  by_cases h : t < s - tol
  · refine ⟨⟨[], 0, 0⟩, ⟨[⟨s, c, 0⟩], s, s⟩, by unfold resize; rw [if_pos h], ?_, ⟨_, [], rfl, rfl⟩⟩
    unfold Tr.appendIfEmpty
    rw [if_pos rfl, append_empty ip rfl]
  · obtain ⟨z, a1, a2⟩ := Signal.resize_none (x := x) (s := s) (t := t) v hx hb (not_lt.1 h)
    exact ⟨z, z, a1, appendIfEmpty_ne a2.ne _ _, a2⟩

theorem resize_append_to (ip : Interpol) {x : Signal} (hx : x.samples ≠ []) {s t : ℚ} (h : s ≤ t) (v c : ℚ) :
    ∃ w, resize x s t v = .ok w ∧ Tr.appendIfEmpty ip w s c = .ok w ∧ Hd w ∧ w.beginTime = s ∧ w.endTime = t := by
  obtain ⟨z, a1, a2, a3, a4⟩ := resize_hd (x := x) (s := s) (t := t) v hx (by linarith [tol_pos])
  exact ⟨z, a1, appendIfEmpty_ne a2.ne _ _, a2, a3, by rw [a4, if_neg (not_lt.2 h)]⟩

theorem atom_lu (hD : WellShaped n env.data) (hsem : env.sem = .SPACE) (hne : env.data ≠ []) (hE : 0 ≤ E)
    (hSE : S ≤ E) {s : St} {k : Cmp} {l r : Tr} (he : IsExpr n l ∧ IsExpr n r) {Q : Assoc ℚ}
    (ha : COk env.data Q S E (.atom s k l r)) :
    ∃ p, s.z.front = .ok p ∧
      (∃ T', Tr.computeLow env (.atom s k l r) = .ok (T', p.value) ∧ T'.st.zlow = s.z) ∧
      (∃ T', Tr.computeUp env (.atom s k l r) = .ok (T', p.value) ∧ T'.st.zup = s.z) := by
  obtain ⟨z, l', r', v, h1, h2, ⟨p, hp, _⟩, _, h4⟩ := atom_cov (P := []) hD hsem hne hE hSE ha.2.2.1 he
    ha.2.2.2 (Or.inr ha)
  obtain rfl := h4 ha
  have hlt : ¬ s.z.endTime < s.start := by
    rw [ha.2.1, ha.1.1.1]; exact not_lt.2 hSE
  refine ⟨p, hp, ⟨.atom { s with zlow := s.z } k l' r', ?_, rfl⟩, ⟨.atom { s with zup := s.z } k l' r', ?_, rfl⟩⟩
  · have w : Tr.defaultLow env { s with z := s.z } = .ok s.z := by
      unfold Tr.defaultLow; rw [if_neg hlt]
    simp only [Tr.computeLow, h1, bind, Except.bind, Tr.st, w, hp, Tr.setSt]
  · have w : Tr.defaultUp env { s with z := s.z } = .ok s.z := by
      unfold Tr.defaultUp; rw [if_neg hlt]
    simp only [Tr.computeUp, h1, bind, Except.bind, Tr.st, w, hp, Tr.setSt]

/-- The signal covers the evaluation interval exactly. -/
def Spans (S E : ℚ) (T : Tr) (z : Signal) : Prop :=
  Hd z ∧ z.endTime = E ∧ (COk.Begins S T → z.beginTime = S)

/-- Both bounds of a formula without until, on covering data: they end at the end of the evaluation interval. -/
theorem luf_cov (hD : WellShaped n env.data) (hsem : env.sem = .SPACE) (hne : env.data ≠ []) (T : Tr) :
    ∀ {S E : ℚ}, 0 ≤ S → S ≤ E → IsFormula n env.params T → COk env.data env.params S E T →
    (∃ T' v, Tr.computeLow env T = .ok (T', v) ∧ Spans S E T T'.st.zlow) ∧
    (∃ T' v, Tr.computeUp env T = .ok (T', v) ∧ Spans S E T T'.st.zup) := by
  have fm : ∀ {E : ℚ}, fmin E E = E := fun {E} => by unfold fmin; split <;> rfl
  have ev : ∀ {s : St} {S E a b : ℚ} {x : Signal}, StAny S E s → S ≤ E → Hd x → 0 ≤ a → a ≤ b → 0 ≤ S →
      x.endTime = E + b →
      (∃ z v, Tr.evLow env s a b x = .ok (z, v) ∧ Hd z ∧ z.beginTime = S ∧ z.endTime = E) ∧
      (∃ z v, Tr.evUp env s a b x = .ok (z, v) ∧ Hd z ∧ z.beginTime = S ∧ z.endTime = E) ∧
      (∃ z v, Tr.alwLow env s a b x = .ok (z, v) ∧ Hd z ∧ z.beginTime = S ∧ z.endTime = E) ∧
      (∃ z v, Tr.alwUp env s a b x = .ok (z, v) ∧ Hd z ∧ z.beginTime = S ∧ z.endTime = E) := by
    intro s S E a b x hs hSE hx ha hab h0 hend
    obtain ⟨s1, s2, _⟩ := hs
    unfold Tr.evLow Tr.evUp Tr.alwLow Tr.alwUp
    have h0 : ¬ x.endTime < a := by rw [hend]; linarith
    simp only [if_neg h0, bind, Except.bind]
    obtain ⟨z, b1, b2, b3, b4⟩ := computeTimedEventually_total env.B s.zlow (b := b) hx ha
    obtain ⟨z2, e1, e2, e3, e4⟩ := computeTimedEventually_total env.B s.zup (b := b) hx ha
    obtain ⟨y, c1, c2, c3, c4⟩ := computeTimedGlobally_total env.B s.zlow (b := b) hx ha
    obtain ⟨y2, f1, f2, f3, f4⟩ := computeTimedGlobally_total env.B s.zup (b := b) hx ha
    simp only [b1, c1, e1, f1]
    have m1 : ∀ {q : ℚ}, q = x.endTime - a → max S (min q s.stop) = E := by
      rintro q rfl
      rw [s2, hend, min_eq_right (by linarith), max_eq_right hSE]
    have m2 : ∀ {q : ℚ}, q = x.endTime - a → min (q - b + a) s.stop = E := by
      rintro q rfl
      rw [s2, hend, min_eq_right (by linarith)]
    simp only [m1 b4, m1 f4, m2 e4, m2 c4, s1]
    refine ⟨?_, ?_, ?_, ?_⟩
    · obtain ⟨w, d1, d2, d3, d4⟩ := resize_append_to env.ip b2.ne hSE 0 (-env.B)
      obtain ⟨p, hp⟩ := front_ok d3.ne
      exact ⟨w, p.value, by simp only [d1, d2, hp], d3, d4⟩
    · obtain ⟨w, d1, d2, d3, d4⟩ := resize_append_to env.ip e2.ne hSE 0 env.B
      obtain ⟨p, hp⟩ := front_ok d3.ne
      exact ⟨w, p.value, by simp only [d1, d2, hp], d3, d4⟩
    · obtain ⟨w, d1, d2, d3, d4⟩ := resize_append_to env.ip c2.ne hSE 0 (-env.B)
      obtain ⟨p, hp⟩ := front_ok d3.ne
      exact ⟨w, p.value, by simp only [d1, d2, hp], d3, d4⟩
    · obtain ⟨w, d1, d2, d3, d4⟩ := resize_append_to env.ip f2.ne hSE 0 env.B
      obtain ⟨p, hp⟩ := front_ok d3.ne
      exact ⟨w, p.value, by simp only [d1, d2, hp], d3, d4⟩
  induction T with
  | atom s k l r =>
    intro S E h0 hSE hF hT
    obtain ⟨p, hp, ⟨T1, h1, h2⟩, ⟨T2, h3, h4⟩⟩ := atom_lu hD hsem hne (h0.trans hSE) hSE hF hT
    have : Spans S E (.atom s k l r) s.z := ⟨hT.1.1.2.2.2.2, hT.2.1, fun h => h⟩
    exact ⟨⟨T1, _, h1, h2 ▸ this⟩, ⟨T2, _, h3, h4 ▸ this⟩⟩
  | not s c ih =>
    intro S E h0 hSE hF hT
    obtain ⟨⟨c1, v1, l1, l2⟩, ⟨c2, v2, u1, u2⟩⟩ := ih h0 hSE hF hT.2
    obtain ⟨p, hp⟩ := front_ok (Hd_not u2.1).ne
    obtain ⟨q, hq⟩ := front_ok (Hd_not l2.1).ne
    exact ⟨⟨.not { s with zlow := computeNot c2.st.zup } c2, p.value,
      by simp only [Tr.computeLow, u1, bind, Except.bind, if_neg u2.1.ne, hp], Hd_not u2.1, u2.2⟩,
      ⟨.not { s with zup := computeNot c1.st.zlow } c1, q.value,
      by simp only [Tr.computeUp, l1, bind, Except.bind, if_neg l2.1.ne, hq], Hd_not l2.1, l2.2⟩⟩
  | and s l r ih1 ih2 =>
    intro S E h0 hSE hF hT
    obtain ⟨⟨c1, v1, l1, l2⟩, ⟨c2, v2, u1, u2⟩⟩ := ih1 h0 hSE hF.1 hT.2.1
    obtain ⟨⟨d1, w1, m1, m2⟩, ⟨d2, w2, t1, t2⟩⟩ := ih2 h0 hSE hF.2 hT.2.2
    have s1 := hT.1.1
    constructor
    · obtain ⟨z, a1, a2, a3, a4⟩ := computeAndM_total l2.1 m2.1
      obtain ⟨w, b1, b2, b3, b4, b5⟩ := resize_append_to env.ip a2.ne hSE (-env.B) (-env.B)
      obtain ⟨p, hp⟩ := front_ok b3.ne
      exact ⟨.and { s with zlow := w } c1 d1, p.value,
        by simp only [Tr.computeLow, l1, m1, bind, Except.bind, Tr.andLow, a1, s1, l2.2.1, m2.2.1, min_self, b1, b2, hp],
        b3, b5, fun _ => b4⟩
    · obtain ⟨z, a1, a2, a3, a4⟩ := computeAndM_total u2.1 t2.1
      rw [u2.2.1, t2.2.1, fm] at a4
      obtain ⟨w, b1, b2, b3, b4, b5⟩ := resize_append_to env.ip a2.ne hSE env.B env.B
      obtain ⟨p, hp⟩ := front_ok b3.ne
      exact ⟨.and { s with zup := w } c2 d2, p.value,
        by simp only [Tr.computeUp, u1, t1, bind, Except.bind, Tr.andUp, a1, s1, a4, b1, b2, hp], b3, b5, fun _ => b4⟩
  | or s l r ih1 ih2 =>
    intro S E h0 hSE hF hT
    obtain ⟨⟨c1, v1, l1, l2⟩, ⟨c2, v2, u1, u2⟩⟩ := ih1 h0 hSE hF.1 hT.2.1
    obtain ⟨⟨d1, w1, m1, m2⟩, ⟨d2, w2, t1, t2⟩⟩ := ih2 h0 hSE hF.2 hT.2.2
    have s1 := hT.1.1
    constructor
    · obtain ⟨z, a1, a2, a3, a4⟩ := computeOrM_total l2.1 m2.1
      rw [l2.2.1, m2.2.1, fm] at a4
      obtain ⟨w, b1, b2, b3, b4, b5⟩ := resize_append_to env.ip a2.ne hSE (-env.B) (-env.B)
      obtain ⟨p, hp⟩ := front_ok b3.ne
      exact ⟨.or { s with zlow := w } c1 d1, p.value,
        by simp only [Tr.computeLow, l1, m1, bind, Except.bind, Tr.orLow, a1, s1, a4, b1, b2, hp], b3, b5, fun _ => b4⟩
    · obtain ⟨z, a1, a2, a3, a4⟩ := computeOrM_total u2.1 t2.1
      obtain ⟨w, b1, b2, b3, b4, b5⟩ := resize_append_to env.ip a2.ne hSE env.B env.B
      obtain ⟨p, hp⟩ := front_ok b3.ne
      exact ⟨.or { s with zup := w } c2 d2, p.value,
        by simp only [Tr.computeUp, u1, t1, bind, Except.bind, Tr.orUp, a1, s1, u2.2.1, t2.2.1, min_self, b1, b2, hp],
        b3, b5, fun _ => b4⟩
  | implies s l r ih1 ih2 =>
    intro S E h0 hSE hF hT
    obtain ⟨⟨c1, v1, l1, l2⟩, ⟨c2, v2, u1, u2⟩⟩ := ih1 h0 hSE hF.1 hT.2.1
    obtain ⟨⟨d1, w1, m1, m2⟩, ⟨d2, w2, t1, t2⟩⟩ := ih2 h0 hSE hF.2 hT.2.2
    have s1 := hT.1.1
    have n1 : (computeNot c1.st.zlow).endTime = E := l2.2.1
    have n2 : (computeNot c2.st.zup).endTime = E := u2.2.1
    constructor
    · obtain ⟨z, a1, a2, a3, a4⟩ := computeOrM_total (Hd_not u2.1) m2.1
      rw [n2, m2.2.1, fm] at a4
      obtain ⟨w, b1, b2, b3, b4, b5⟩ := resize_append_to env.ip a2.ne hSE (-env.B) (-env.B)
      obtain ⟨p, hp⟩ := front_ok b3.ne
      exact ⟨.implies { s with zlow := w } c2 d1, p.value,
        by simp only [Tr.computeLow, u1, m1, bind, Except.bind, Tr.impliesLow, a1, s1, a4, b1, b2, hp], b3, b5, fun _ => b4⟩
    · obtain ⟨z, a1, a2, a3, a4⟩ := computeOrM_total (Hd_not l2.1) t2.1
      obtain ⟨w, b1, b2, b3, b4, b5⟩ := resize_append_to env.ip a2.ne hSE env.B env.B
      obtain ⟨p, hp⟩ := front_ok b3.ne
      exact ⟨.implies { s with zup := w } c1 d2, p.value,
        by simp only [Tr.computeUp, l1, t1, bind, Except.bind, Tr.impliesUp, a1, s1, n1, t2.2.1, min_self, b1, b2, hp],
        b3, b5, fun _ => b4⟩
  | ev s I c ih =>
    intro S E h0 hSE hF hT
    obtain ⟨⟨c1, v1, l1, l2⟩, ⟨c2, v2, u1, u2⟩⟩ := ih (by linarith [hT.2.1]) (by linarith [hT.2.2.1]) hF.2.2 hT.2.2.2
    obtain ⟨z, v, a1, a2, a3, a4⟩ := (ev (s := s) (b := Tr.ivB env.params I) hT.1 hSE l2.1 hT.2.1 hT.2.2.1 h0 l2.2.1).1
    obtain ⟨z', v', b1, b2, b3, b4⟩ := (ev (s := s) (b := Tr.ivB env.params I) hT.1 hSE u2.1 hT.2.1 hT.2.2.1 h0 u2.2.1).2.1
    exact ⟨⟨.ev { s with zlow := z } I c1, v, by simp only [Tr.computeLow, l1, bind, Except.bind, a1], a2, a4, fun _ => a3⟩,
      ⟨.ev { s with zup := z' } I c2, v', by simp only [Tr.computeUp, u1, bind, Except.bind, b1], b2, b4, fun _ => b3⟩⟩
  | alw s I c ih =>
    intro S E h0 hSE hF hT
    obtain ⟨⟨c1, v1, l1, l2⟩, ⟨c2, v2, u1, u2⟩⟩ := ih (by linarith [hT.2.1]) (by linarith [hT.2.2.1]) hF.2.2 hT.2.2.2
    obtain ⟨z, v, a1, a2, a3, a4⟩ := (ev (s := s) (b := Tr.ivB env.params I) hT.1 hSE l2.1 hT.2.1 hT.2.2.1 h0 l2.2.1).2.2.1
    obtain ⟨z', v', b1, b2, b3, b4⟩ := (ev (s := s) (b := Tr.ivB env.params I) hT.1 hSE u2.1 hT.2.1 hT.2.2.1 h0 u2.2.1).2.2.2
    exact ⟨⟨.alw { s with zlow := z } I c1, v, by simp only [Tr.computeLow, l1, bind, Except.bind, a1], a2, a4, fun _ => a3⟩,
      ⟨.alw { s with zup := z' } I c2, v', by simp only [Tr.computeUp, u1, bind, Except.bind, b1], b2, b4, fun _ => b3⟩⟩
  | _ => intro _ _ _ _ hF; exact hF.elim

/-! ## Formulas with until -/

/-- The bounds of an `until` do not stop early at `±B`. -/
def NoEmpty (env : Env) : Tr → Prop
  | .untl _ l _ r =>
    ((∀ l' v, Tr.computeLow env l = .ok (l', v) → v ≠ -env.B) ∧
      ∀ r' v, Tr.computeLow env r = .ok (r', v) → v ≠ -env.B) ∧
    ((∀ l' v, Tr.computeUp env l = .ok (l', v) → v ≠ env.B) ∧
      ∀ r' v, Tr.computeUp env r = .ok (r', v) → v ≠ env.B)
  | _ => True

/-- No operand of a Boolean operator is an `until` whose bounds stop early. -/
def BGuard (env : Env) : Tr → Prop
  | .not _ c | .ev _ _ c | .alw _ _ c => BGuard env c
  | .and _ l r | .or _ l r | .implies _ l r => BGuard env l ∧ BGuard env r ∧ NoEmpty env l ∧ NoEmpty env r
  | _ => True

/-- What the bounds of a formula are after the run: a signal, or nothing at all if they may stop early. -/
def Got (env : Env) (T : Tr) (z : Signal) : Prop := (Hd z ∨ z = .empty) ∧ (NoEmpty env T → Hd z)

theorem Got.of (T : Tr) {z : Signal} (h : Hd z) : Got env T z := ⟨Or.inl h, fun _ => h⟩

/-- Both bounds of a formula in which no until contains another return on covering data. -/
theorem lu_cov (hD : WellShaped n env.data) (hsem : env.sem = .SPACE) (hne : env.data ≠ []) (T : Tr) :
    ∀ {S E : ℚ}, 0 ≤ S → S ≤ E → IsUntilFormula n env.params T → UntilPlain n env.params T → BGuard env T →
    COk env.data env.params S E T →
    (∃ T' v, Tr.computeLow env T = .ok (T', v) ∧ Got env T T'.st.zlow) ∧
    (∃ T' v, Tr.computeUp env T = .ok (T', v) ∧ Got env T T'.st.zup) := by
  have ev : ∀ {s : St} {a b : ℚ} {x : Signal}, s.zlow = .empty → s.zup = .empty → (Hd x ∨ x = .empty) → 0 ≤ a →
      0 ≤ s.start →
      (∃ z v, Tr.evLow env s a b x = .ok (z, v) ∧ Hd z) ∧ (∃ z v, Tr.evUp env s a b x = .ok (z, v) ∧ Hd z) ∧
      (∃ z v, Tr.alwLow env s a b x = .ok (z, v) ∧ Hd z) ∧ (∃ z v, Tr.alwUp env s a b x = .ok (z, v) ∧ Hd z) := by
    intro s a b x hl hu hx ha h0
    unfold Tr.evLow Tr.evUp Tr.alwLow Tr.alwUp
    rw [hl, hu]
    by_cases h1 : x.endTime < a
    · simp only [if_pos h1, append_empty env.ip (show Signal.empty.samples = [] from rfl), bind, Except.bind]
      refine ⟨⟨_, _, rfl, ?_⟩, ⟨_, _, rfl, ?_⟩, ⟨_, _, rfl, ?_⟩, ⟨_, _, rfl, ?_⟩⟩ <;> exact ⟨_, [], rfl, rfl⟩
    · simp only [if_neg h1, bind, Except.bind]
      obtain ⟨z, b1, b2⟩ : ∃ z, computeTimedEventually env.B .empty x a b = .ok z ∧
          ∀ t v c, ∃ z' w, resize z s.start t v = .ok z' ∧ Tr.appendIfEmpty env.ip z' s.start c = .ok w ∧ Hd w := by
        rcases hx with hx | rfl
        · obtain ⟨z, b1, b2, b3, b4⟩ := computeTimedEventually_total env.B .empty (b := b) hx ha
          exact ⟨z, b1, fun t v c => resize_append env.ip b2.ne s.start t v c⟩
        · exact ⟨.empty, rfl, fun t v c => resize_append_none env.ip rfl h0 t v c⟩
      obtain ⟨y, c1, c2⟩ : ∃ z, computeTimedGlobally env.B .empty x a b = .ok z ∧
          ∀ t v c, ∃ z' w, resize z s.start t v = .ok z' ∧ Tr.appendIfEmpty env.ip z' s.start c = .ok w ∧ Hd w := by
        rcases hx with hx | rfl
        · obtain ⟨z, b1, b2, b3, b4⟩ := computeTimedGlobally_total env.B .empty (b := b) hx ha
          exact ⟨z, b1, fun t v c => resize_append env.ip b2.ne s.start t v c⟩
        · exact ⟨.empty, rfl, fun t v c => resize_append_none env.ip rfl h0 t v c⟩
      simp only [b1, c1]
      refine ⟨?_, ?_, ?_, ?_⟩
      · obtain ⟨z', w, d1, d2, d3⟩ := b2 (max s.start (min z.endTime s.stop)) 0 (-env.B)
        obtain ⟨p, hp⟩ := front_ok d3.ne
        exact ⟨w, p.value, by simp only [d1, d2, hp], d3⟩
      · obtain ⟨z', w, d1, d2, d3⟩ := b2 (min (z.endTime - b + a) s.stop) 0 env.B
        obtain ⟨p, hp⟩ := front_ok d3.ne
        exact ⟨w, p.value, by simp only [d1, d2, hp], d3⟩
      · obtain ⟨z', w, d1, d2, d3⟩ := c2 (min (y.endTime - b + a) s.stop) 0 (-env.B)
        obtain ⟨p, hp⟩ := front_ok d3.ne
        exact ⟨w, p.value, by simp only [d1, d2, hp], d3⟩
      · obtain ⟨z', w, d1, d2, d3⟩ := c2 (max s.start (min y.endTime s.stop)) 0 env.B
        obtain ⟨p, hp⟩ := front_ok d3.ne
        exact ⟨w, p.value, by simp only [d1, d2, hp], d3⟩
  induction T with
  | atom s k l r =>
    intro S E h0 hSE hF _ _ hT
    obtain ⟨p, hp, ⟨T1, h1, h2⟩, ⟨T2, h3, h4⟩⟩ := atom_lu hD hsem hne (h0.trans hSE) hSE hF hT
    have := hT.1.1.2.2.2.2
    exact ⟨⟨T1, _, h1, .of _ (h2 ▸ this)⟩, ⟨T2, _, h3, .of _ (h4 ▸ this)⟩⟩
  | not s c ih =>
    intro S E h0 hSE hF hp hg hT
    obtain ⟨⟨c1, v1, l1, l2⟩, ⟨c2, v2, u1, u2⟩⟩ := ih h0 hSE hF hp hg hT.2
    obtain ⟨_, _, z1, z2, _⟩ := hT.1
    constructor
    · rcases u2.1 with u2 | u2
      · obtain ⟨p, hp⟩ := front_ok (Hd_not u2).ne
        exact ⟨.not { s with zlow := computeNot c2.st.zup } c2, p.value,
          by simp only [Tr.computeLow, u1, bind, Except.bind, if_neg u2.ne, hp], .of _ (Hd_not u2)⟩
      · refine ⟨.not { s with zlow := ⟨[⟨s.start, -env.B, 0⟩], s.start, s.start⟩ } c2, -env.B, ?_, .of _ ⟨_, [], rfl, rfl⟩⟩
        simp only [Tr.computeLow, u1, bind, Except.bind, u2, z1,
          if_pos (show Signal.empty.samples = [] from rfl), append_empty env.ip (show Signal.empty.samples = [] from rfl)]
    · rcases l2.1 with l2 | l2
      · obtain ⟨p, hp⟩ := front_ok (Hd_not l2).ne
        exact ⟨.not { s with zup := computeNot c1.st.zlow } c1, p.value,
          by simp only [Tr.computeUp, l1, bind, Except.bind, if_neg l2.ne, hp], .of _ (Hd_not l2)⟩
      · refine ⟨.not { s with zup := ⟨[⟨s.start, env.B, 0⟩], s.start, s.start⟩ } c1, env.B, ?_, .of _ ⟨_, [], rfl, rfl⟩⟩
        simp only [Tr.computeUp, l1, bind, Except.bind, l2, z2,
          if_pos (show Signal.empty.samples = [] from rfl), append_empty env.ip (show Signal.empty.samples = [] from rfl)]
  | and s l r ih1 ih2 =>
    intro S E h0 hSE hF hp hg hT
    obtain ⟨⟨c1, v1, l1, l2⟩, ⟨c2, v2, u1, u2⟩⟩ := ih1 h0 hSE hF.1 hp.1 hg.1 hT.2.1
    obtain ⟨⟨d1, w1, m1, m2⟩, ⟨d2, w2, t1, t2⟩⟩ := ih2 h0 hSE hF.2 hp.2 hg.2.1 hT.2.2
    replace l2 := l2.2 hg.2.2.1
    replace u2 := u2.2 hg.2.2.1
    replace m2 := m2.2 hg.2.2.2
    replace t2 := t2.2 hg.2.2.2
    constructor
    · obtain ⟨z, a1, a2, _⟩ := computeAndM_total l2 m2
      obtain ⟨z', w, b1, b2, b3⟩ := resize_append env.ip a2.ne s.start
        (min c1.st.zlow.endTime d1.st.zlow.endTime) (-env.B) (-env.B)
      obtain ⟨p, hp⟩ := front_ok b3.ne
      exact ⟨.and { s with zlow := w } c1 d1, p.value,
        by simp only [Tr.computeLow, l1, m1, bind, Except.bind, Tr.andLow, a1, b1, b2, hp], .of _ b3⟩
    · obtain ⟨z, a1, a2, _⟩ := computeAndM_total u2 t2
      obtain ⟨z', w, b1, b2, b3⟩ := resize_append env.ip a2.ne s.start z.endTime env.B env.B
      obtain ⟨p, hp⟩ := front_ok b3.ne
      exact ⟨.and { s with zup := w } c2 d2, p.value,
        by simp only [Tr.computeUp, u1, t1, bind, Except.bind, Tr.andUp, a1, b1, b2, hp], .of _ b3⟩
  | or s l r ih1 ih2 =>
    intro S E h0 hSE hF hp hg hT
    obtain ⟨⟨c1, v1, l1, l2⟩, ⟨c2, v2, u1, u2⟩⟩ := ih1 h0 hSE hF.1 hp.1 hg.1 hT.2.1
    obtain ⟨⟨d1, w1, m1, m2⟩, ⟨d2, w2, t1, t2⟩⟩ := ih2 h0 hSE hF.2 hp.2 hg.2.1 hT.2.2
    replace l2 := l2.2 hg.2.2.1
    replace u2 := u2.2 hg.2.2.1
    replace m2 := m2.2 hg.2.2.2
    replace t2 := t2.2 hg.2.2.2
    constructor
    · obtain ⟨z, a1, a2, _⟩ := computeOrM_total l2 m2
      obtain ⟨z', w, b1, b2, b3⟩ := resize_append env.ip a2.ne s.start z.endTime (-env.B) (-env.B)
      obtain ⟨p, hp⟩ := front_ok b3.ne
      exact ⟨.or { s with zlow := w } c1 d1, p.value,
        by simp only [Tr.computeLow, l1, m1, bind, Except.bind, Tr.orLow, a1, b1, b2, hp], .of _ b3⟩
    · obtain ⟨z, a1, a2, _⟩ := computeOrM_total u2 t2
      obtain ⟨z', w, b1, b2, b3⟩ := resize_append env.ip a2.ne s.start
        (min c2.st.zup.endTime d2.st.zup.endTime) env.B env.B
      obtain ⟨p, hp⟩ := front_ok b3.ne
      exact ⟨.or { s with zup := w } c2 d2, p.value,
        by simp only [Tr.computeUp, u1, t1, bind, Except.bind, Tr.orUp, a1, b1, b2, hp], .of _ b3⟩
  | implies s l r ih1 ih2 =>
    intro S E h0 hSE hF hp hg hT
    obtain ⟨⟨c1, v1, l1, l2⟩, ⟨c2, v2, u1, u2⟩⟩ := ih1 h0 hSE hF.1 hp.1 hg.1 hT.2.1
    obtain ⟨⟨d1, w1, m1, m2⟩, ⟨d2, w2, t1, t2⟩⟩ := ih2 h0 hSE hF.2 hp.2 hg.2.1 hT.2.2
    replace l2 := l2.2 hg.2.2.1
    replace u2 := u2.2 hg.2.2.1
    replace m2 := m2.2 hg.2.2.2
    replace t2 := t2.2 hg.2.2.2
    constructor
    · obtain ⟨z, a1, a2, _⟩ := computeOrM_total (Hd_not u2) m2
      obtain ⟨z', w, b1, b2, b3⟩ := resize_append env.ip a2.ne s.start z.endTime (-env.B) (-env.B)
      obtain ⟨p, hp⟩ := front_ok b3.ne
      exact ⟨.implies { s with zlow := w } c2 d1, p.value,
        by simp only [Tr.computeLow, u1, m1, bind, Except.bind, Tr.impliesLow, a1, b1, b2, hp], .of _ b3⟩
    · obtain ⟨z, a1, a2, _⟩ := computeOrM_total (Hd_not l2) t2
      obtain ⟨z', w, b1, b2, b3⟩ := resize_append env.ip a2.ne s.start
        (min (computeNot c1.st.zlow).endTime d2.st.zup.endTime) env.B env.B
      obtain ⟨p, hp⟩ := front_ok b3.ne
      exact ⟨.implies { s with zup := w } c1 d2, p.value,
        by simp only [Tr.computeUp, l1, t1, bind, Except.bind, Tr.impliesUp, a1, b1, b2, hp], .of _ b3⟩
  | ev s I c ih =>
    intro S E h0 hSE hF hp hg hT
    obtain ⟨⟨c1, v1, l1, l2⟩, ⟨c2, v2, u1, u2⟩⟩ := ih (by linarith [hT.2.1]) (by linarith [hT.2.2.1]) hF.2.2 hp hg hT.2.2.2
    have hs : 0 ≤ s.start := hT.1.1.symm ▸ h0
    obtain ⟨z, v, a1, a2⟩ := (ev (s := s) (b := Tr.ivB env.params I) hT.1.2.2.1 hT.1.2.2.2.1 l2.1 hT.2.1 hs).1
    obtain ⟨z', v', b1, b2⟩ := (ev (s := s) (b := Tr.ivB env.params I) hT.1.2.2.1 hT.1.2.2.2.1 u2.1 hT.2.1 hs).2.1
    exact ⟨⟨.ev { s with zlow := z } I c1, v, by simp only [Tr.computeLow, l1, bind, Except.bind, a1], .of _ a2⟩,
      ⟨.ev { s with zup := z' } I c2, v', by simp only [Tr.computeUp, u1, bind, Except.bind, b1], .of _ b2⟩⟩
  | alw s I c ih =>
    intro S E h0 hSE hF hp hg hT
    obtain ⟨⟨c1, v1, l1, l2⟩, ⟨c2, v2, u1, u2⟩⟩ := ih (by linarith [hT.2.1]) (by linarith [hT.2.2.1]) hF.2.2 hp hg hT.2.2.2
    have hs : 0 ≤ s.start := hT.1.1.symm ▸ h0
    obtain ⟨z, v, a1, a2⟩ := (ev (s := s) (b := Tr.ivB env.params I) hT.1.2.2.1 hT.1.2.2.2.1 l2.1 hT.2.1 hs).2.2.1
    obtain ⟨z', v', b1, b2⟩ := (ev (s := s) (b := Tr.ivB env.params I) hT.1.2.2.1 hT.1.2.2.2.1 u2.1 hT.2.1 hs).2.2.2
    exact ⟨⟨.alw { s with zlow := z } I c1, v, by simp only [Tr.computeLow, l1, bind, Except.bind, a1], .of _ a2⟩,
      ⟨.alw { s with zup := z' } I c2, v', by simp only [Tr.computeUp, u1, bind, Except.bind, b1], .of _ b2⟩⟩
  | untl s l I r _ _ =>
    intro S E h0 hSE hF hp hg hT
    obtain ⟨⟨s1, s2, z1, z2, _⟩, ha, hab, hl, hr, hbl, hbr⟩ := hT
    have hb := ha.trans hab.le
    obtain ⟨⟨c1, v1, l1, l2, l3, l4⟩, ⟨c2, v2, u1, u2, u3, u4⟩⟩ := luf_cov hD hsem hne l h0 (by linarith) hp.1 hl
    obtain ⟨⟨d1, w1, m1, m2, m3, m4⟩, ⟨d2, w2, t1, t2, t3, t4⟩⟩ := luf_cov hD hsem hne r (by linarith) (by linarith) hp.2 hr
    constructor
    · by_cases q1 : v1 = -env.B
      · exact ⟨.untl s c1 I r, -env.B, by simp only [Tr.computeLow, l1, bind, Except.bind, if_pos q1],
          Or.inr z1, fun h => absurd q1 (h.1.1 _ _ l1)⟩
      by_cases q2 : w1 = -env.B
      · exact ⟨.untl s c1 I d1, -env.B, by simp only [Tr.computeLow, l1, m1, bind, Except.bind, if_neg q1, if_pos q2],
          Or.inr z1, fun h => absurd q2 (h.1.2 _ _ m1)⟩
      obtain ⟨z, e1, e2, e3, e4⟩ := timedUntil_total env.B s.zlow l2 m2 ha hab (h0.trans hSE) hSE
        (l4 hbl).le l3.ge (m4 hbr).le m3.ge
      obtain ⟨w, f1, f2, _⟩ := resize_hd (x := z) (s := s.start) (t := max s.start (min z.endTime s.stop)) 0 e2.ne
        (by linarith [le_max_left s.start (min z.endTime s.stop), tol_pos])
      obtain ⟨p, ps, hw, _⟩ := id f2
      refine ⟨.untl { s with zlow := w } c1 I d1, p.value, ?_, .of _ f2⟩
      simp only [Tr.computeLow, l1, m1, bind, Except.bind, if_neg q1, if_neg q2, Tr.untilLow, e1, f1, hw]
    · by_cases q1 : v2 = env.B
      · exact ⟨.untl s c2 I r, env.B, by simp only [Tr.computeUp, u1, bind, Except.bind, if_pos q1],
          Or.inr z2, fun h => absurd q1 (h.2.1 _ _ u1)⟩
      by_cases q2 : w2 = env.B
      · exact ⟨.untl s c2 I d2, env.B, by simp only [Tr.computeUp, u1, t1, bind, Except.bind, if_neg q1, if_pos q2],
          Or.inr z2, fun h => absurd q2 (h.2.2 _ _ t1)⟩
      obtain ⟨z, e1, e2, e3, e4⟩ := timedUntil_total env.B s.zup u2 t2 ha hab (h0.trans hSE) hSE
        (u4 hbl).le u3.ge (t4 hbr).le t3.ge
      obtain ⟨w, f1, f2, _⟩ := resize_hd (x := z) (s := s.start)
        (t := max s.start (min (z.endTime - Tr.ivB env.params I) s.stop)) 0 e2.ne
        (by linarith [le_max_left s.start (min (z.endTime - Tr.ivB env.params I) s.stop), tol_pos])
      obtain ⟨p, ps, hw, _⟩ := id f2
      refine ⟨.untl { s with zup := w } c2 I d2, p.value, ?_, .of _ f2⟩
      simp only [Tr.computeUp, u1, t1, bind, Except.bind, if_neg q1, if_neg q2, Tr.untilUp, e1, f1, hw]
  | _ => intro _ _ _ _ hF; exact hF.elim

end
end STLRom
