import Verif.Proofs.Formula

/-!
# Lower and upper bounds after an evaluation, on continuous signals
-/

namespace STLRom
open Signal Spec

/-- The outcome of `compute_lower_rob`. -/
structure LowOut (env : Env) (S E : ℚ) (T T' : Tr) (v : ℚ) : Prop where
  after : After env none S E T'
  node : Node env.B T'.st.zlow S E
  is : Is T'.st.zlow S E (rob .LINEAR env.data env.params T)
  val : v = T'.st.zlow.v (pl S)
  mark : Mark env E T T'.st.zlow

/-- The outcome of `compute_upper_rob`. -/
structure UpOut (env : Env) (S E : ℚ) (T T' : Tr) (v : ℚ) : Prop where
  after : After env none S E T'
  node : Node env.B T'.st.zup S E
  is : Is T'.st.zup S E (rob .LINEAR env.data env.params T)
  val : v = T'.st.zup.v (pl S)
  mark : Mark env E T T'.st.zup

section
variable {env : Env} {n : ℕ}

theorem Cut.facts {x z : Signal} {B S E : ℚ} {cut : Option ℚ} (hx : Node B x S E)
    (h : Cut x z E cut) (hc : ∀ c, cut = some c → c ≤ E) : z.samples ≠ [] ∧ z.endTime = E := by
  cases cut with
  | none =>
    obtain rfl : z = x := h
    exact ⟨hx.wf.ne, hx.e⟩
  | some c =>
    obtain ⟨z', h1, h2, _⟩ := hx.resize_any 0 (u := c) (w := E) (hc c rfl) hx.le le_rfl
    rw [Cut, h1] at h
    obtain rfl := Except.ok.inj h
    exact ⟨h2.wf.ne, h2.e⟩

/-- Evaluating an atom again changes neither its signal nor its times. -/
theorem atom_again (hL : Lin env n) (hsem : env.sem = .SPACE) (hne : env.data ≠ []) {S E : ℚ}
    {cut : Option ℚ} (hE : 0 ≤ E) (hSE : S ≤ E) {s : St} {k : Cmp} {l r : Tr}
    (hF : IsFormula n env.params (.atom s k l r)) (ha : After env cut S E (.atom s k l r))
    (hc : ∀ c, cut = some c → c ≤ E) :
    ∃ l' r' v, Tr.computeRob env (.atom s k l r) = .ok (.atom s k l' r', v) ∧
      After env cut S E (.atom s k l' r') := by
  obtain ⟨h1, h2, h3, x, h4, h5, h6, h7⟩ := ha
  obtain ⟨l', v1, a1, a2⟩ := expr_again hL hne hE hSE l hF.1 h2
  obtain ⟨r', v2, b1, b2⟩ := expr_again hL hne hE hSE r hF.2 h3
  obtain ⟨hz1, hz2⟩ := h6.facts h4 hc
  have hz : Tr.atomRob env k s.z l'.st.z r'.st.z = .ok s.z := by
    unfold Tr.atomRob
    rw [atomLoop_eq, appendSamples_skip env.ip hz1, hsem]
    · show Except.ok _ = _
      rw [a2.st.2.2.2.1, ← hz2]
    · intro p hp
      have hm : p.time ∈ times (comb (atomS k) l'.st.z.samples r'.st.z.samples) :=
        List.mem_map_of_mem hp
      rw [comb_times (atomS_time k) (a2.st.2.2.2.2.trans b2.st.2.2.2.2.symm), a2.st.2.2.2.2] at hm
      rw [hz2]
      exact Tr.grid_le hSE p.time hm
  obtain ⟨p, hp⟩ := front_ok hz1
  refine ⟨l', r', p.value, ?_, h1, a2, b2, x, h4, ?_, h6, h7⟩
  · simp only [Tr.computeRob, a1, b1, bind, Except.bind, hz, hp]
  · intro t c d
    rw [← h5 t c d]
    simp only [rob]
    rw [← expr_forget _ _ _ l', Tr.forgetB_computeRob l a1, expr_forget, ← expr_forget _ _ _ r',
      Tr.forgetB_computeRob r b1, expr_forget]

theorem atom_low (hL : Lin env n) (hsem : env.sem = .SPACE) (hne : env.data ≠ []) {S E : ℚ}
    {cut : Option ℚ} (hE : 0 ≤ E) (hSE : S ≤ E) {s : St} {k : Cmp} {l r : Tr}
    (hF : IsFormula n env.params (.atom s k l r)) (ha : After env cut S E (.atom s k l r))
    (hc : ∀ c, cut = some c → c ≤ E) :
    ∃ T' p, Tr.computeLow env (.atom s k l r) = .ok (T', p.value) ∧ After env cut S E T' ∧
      T'.st.zlow = s.z ∧ s.z.front = .ok p := by
  obtain ⟨l', r', v, h1, h2⟩ := atom_again hL hsem hne hE hSE hF ha hc
  obtain ⟨a1, a2, a3, x, a4, a5, a6, a7⟩ := h2
  obtain ⟨hz1, hz2⟩ := a6.facts a4 hc
  obtain ⟨p, hp⟩ := front_ok hz1
  refine ⟨.atom { s with zlow := s.z } k l' r', p, ?_, ⟨a1, a2, a3, x, a4, a5, a6, a7⟩, rfl, hp⟩
  have hd : Tr.defaultLow env s = .ok s.z := by
    unfold Tr.defaultLow
    rw [if_neg]
    rw [hz2, a1.1]
    exact not_lt.2 hSE
  simp only [Tr.computeLow, h1, bind, Except.bind, Tr.st, hd, hp, Tr.setSt]

theorem atom_up (hL : Lin env n) (hsem : env.sem = .SPACE) (hne : env.data ≠ []) {S E : ℚ}
    {cut : Option ℚ} (hE : 0 ≤ E) (hSE : S ≤ E) {s : St} {k : Cmp} {l r : Tr}
    (hF : IsFormula n env.params (.atom s k l r)) (ha : After env cut S E (.atom s k l r))
    (hc : ∀ c, cut = some c → c ≤ E) :
    ∃ T' p, Tr.computeUp env (.atom s k l r) = .ok (T', p.value) ∧ After env cut S E T' ∧
      T'.st.zup = s.z ∧ s.z.front = .ok p := by
  obtain ⟨l', r', v, h1, h2⟩ := atom_again hL hsem hne hE hSE hF ha hc
  obtain ⟨a1, a2, a3, x, a4, a5, a6, a7⟩ := h2
  obtain ⟨hz1, hz2⟩ := a6.facts a4 hc
  obtain ⟨p, hp⟩ := front_ok hz1
  refine ⟨.atom { s with zup := s.z } k l' r', p, ?_, ⟨a1, a2, a3, x, a4, a5, a6, a7⟩, rfl, hp⟩
  have hd : Tr.defaultUp env s = .ok s.z := by
    unfold Tr.defaultUp
    rw [if_neg]
    rw [hz2, a1.1]
    exact not_lt.2 hSE
  simp only [Tr.computeUp, h1, bind, Except.bind, Tr.st, hd, hp, Tr.setSt]

/-- Both bounds. -/
def LU (env : Env) (S E : ℚ) (T : Tr) : Prop :=
  (∃ T' v, Tr.computeLow env T = .ok (T', v) ∧ LowOut env S E T T' v) ∧
  (∃ T' v, Tr.computeUp env T = .ok (T', v) ∧ UpOut env S E T T' v)

theorem After.uncut {S E : ℚ} {cut : Option ℚ} {T : Tr} (h : After env cut S E T) (hn : ¬ IsAtom T) :
    After env none S E T := by
  cases T with
  | atom => exact absurd trivial hn
  | not => exact h
  | and => exact h
  | or => exact h
  | implies => exact h
  | ev => exact h
  | alw => exact h
  | _ => exact h.elim

theorem After.cut {S E : ℚ} {cut : Option ℚ} {T : Tr} (h : After env none S E T) (hn : ¬ IsAtom T) :
    After env cut S E T := by
  cases T with
  | atom => exact absurd trivial hn
  | not => exact h
  | and => exact h
  | or => exact h
  | implies => exact h
  | ev => exact h
  | alw => exact h
  | _ => exact h.elim

theorem appendIfEmpty_ne {ip : Interpol} {z : Signal} (h : z.samples ≠ []) (t c : ℚ) :
    Tr.appendIfEmpty ip z t c = .ok z := by
  unfold Tr.appendIfEmpty
  rw [if_neg h]

/-- Resizing to the same interval keeps all values. -/
theorem Node.resize_same {x : Signal} {B S E : ℚ} (v : ℚ) (hx : Node B x S E) :
    ∃ z, Signal.resize x S E v = .ok z ∧ Node B z S E ∧
      ∀ t, S ≤ t → t ≤ E → z.v (pl t) = x.v (pl t) := by
  obtain ⟨z, h1, h2, h3, _⟩ := hx.resize v le_rfl hx.le le_rfl
  exact ⟨z, h1, h2, h3 hx.keeps_begin⟩

theorem Node.resize_end {x z : Signal} {B S E v : ℚ} (hx : Node B x S E)
    (hz : Signal.resize x S E v = .ok z) (hN : Node B z S E) (h : ∃ p ∈ x.samples, E ≤ p.time) :
    ∃ p ∈ z.samples, E ≤ p.time := by
  obtain ⟨p, hp, h⟩ := h
  rcases hx.le.lt_or_eq with hlt | heq
  · exact ⟨p, hx.resize_mem le_rfl hx.le le_rfl hz p hp (by linarith)
      (by rw [← hx.e]; exact hx.wf.le_end p hp), h⟩
  · obtain ⟨f, l, hl, hf⟩ := hN.wf.exists_cons
    exact ⟨f, by rw [hl]; simp, by rw [hf, hN.b, heq]⟩

theorem andBound {x y : Signal} {B S E : ℚ} (v : ℚ) (hx : Node B x S E) (hy : Node B y S E) :
    ∃ z w p, computeAndM x y = .ok z ∧ z.endTime = E ∧ Signal.resize z S E v = .ok w ∧ Node B w S E ∧
      (∀ t, S ≤ t → t ≤ E → w.v (pl t) = min (x.v (pl t)) (y.v (pl t))) ∧ w.front = .ok p ∧
      p.value = w.v (pl S) ∧ ∃ p ∈ w.samples, E ≤ p.time := by
  obtain ⟨z, h1, h2, _, h3⟩ := hx.and hy
  obtain ⟨w, k1, k2, k3⟩ := h2.resize_same v
  obtain ⟨p, hp, hp'⟩ := k2.front
  have hm := computeAndM_mark h1
  rw [hx.e, hy.e, min_self] at hm
  exact ⟨z, w, p, h1, h2.e, k1, k2, fun t a b => (k3 t a b).trans (h3 t a b), hp, hp',
    h2.resize_end k1 k2 hm⟩

theorem orBound {x y : Signal} {B S E : ℚ} (v : ℚ) (hx : Node B x S E) (hy : Node B y S E) :
    ∃ z w p, computeOrM x y = .ok z ∧ z.endTime = E ∧ Signal.resize z S E v = .ok w ∧ Node B w S E ∧
      (∀ t, S ≤ t → t ≤ E → w.v (pl t) = max (x.v (pl t)) (y.v (pl t))) ∧ w.front = .ok p ∧
      p.value = w.v (pl S) ∧ ∃ p ∈ w.samples, E ≤ p.time := by
  obtain ⟨z, h1, h2, _, h3⟩ := hx.or hy
  obtain ⟨w, k1, k2, k3⟩ := h2.resize_same v
  obtain ⟨p, hp, hp'⟩ := k2.front
  have hm := computeOrM_mark h1
  rw [hx.e, hy.e, min_self] at hm
  exact ⟨z, w, p, h1, h2.e, k1, k2, fun t a b => (k3 t a b).trans (h3 t a b), hp, hp',
    h2.resize_end k1 k2 hm⟩

/-- The signal of an `ev` child after `compute_lower_rob` of `ev`'s child: the `ev` part. -/
theorem evLow_of {s : St} {a b S E : ℚ} {z w w' : Signal} (hs : Spn S E s) (hSE : S ≤ E)
    (hE : 0 ≤ E) (hab : a ≤ b) (hze : z.endTime = E + b)
    (h1 : computeTimedEventually env.B s.zlow z a b = .ok w) (h2 : w.endTime = E + b - a)
    (h3 : Signal.resize w S E 0 = .ok w') (h4 : Node env.B w' S E) :
    Tr.evLow env s a b z = .ok (w', w'.v (pl S)) := by
  obtain ⟨p, hp, hp'⟩ := h4.front
  unfold Tr.evLow
  rw [if_neg (by rw [hze]; linarith)]
  simp only [h1, bind, Except.bind, h2, hs.1, hs.2]
  rw [min_eq_right (by linarith), max_eq_right hSE, h3]
  simp only [appendIfEmpty_ne h4.wf.ne, hp, hp']

theorem evUp_of {s : St} {a b S E : ℚ} {z w w' : Signal} (hs : Spn S E s)
    (hE : 0 ≤ E) (hab : a ≤ b) (hze : z.endTime = E + b)
    (h1 : computeTimedEventually env.B s.zup z a b = .ok w) (h2 : w.endTime = E + b - a)
    (h3 : Signal.resize w S E 0 = .ok w') (h4 : Node env.B w' S E) :
    Tr.evUp env s a b z = .ok (w', w'.v (pl S)) := by
  obtain ⟨p, hp, hp'⟩ := h4.front
  unfold Tr.evUp
  rw [if_neg (by rw [hze]; linarith)]
  simp only [h1, bind, Except.bind, h2, hs.1, hs.2]
  rw [show E + b - a - b + a = E by ring, min_self, h3]
  simp only [appendIfEmpty_ne h4.wf.ne, hp, hp']

theorem alwLow_of {s : St} {a b S E : ℚ} {z w w' : Signal} (hs : Spn S E s)
    (hE : 0 ≤ E) (hab : a ≤ b) (hze : z.endTime = E + b)
    (h1 : computeTimedGlobally env.B s.zlow z a b = .ok w) (h2 : w.endTime = E + b - a)
    (h3 : Signal.resize w S E 0 = .ok w') (h4 : Node env.B w' S E) :
    Tr.alwLow env s a b z = .ok (w', w'.v (pl S)) := by
  obtain ⟨p, hp, hp'⟩ := h4.front
  unfold Tr.alwLow
  rw [if_neg (by rw [hze]; linarith)]
  simp only [h1, bind, Except.bind, h2, hs.1, hs.2]
  rw [show E + b - a - b + a = E by ring, min_self, h3]
  simp only [appendIfEmpty_ne h4.wf.ne, hp, hp']

theorem alwUp_of {s : St} {a b S E : ℚ} {z w w' : Signal} (hs : Spn S E s) (hSE : S ≤ E)
    (hE : 0 ≤ E) (hab : a ≤ b) (hze : z.endTime = E + b)
    (h1 : computeTimedGlobally env.B s.zup z a b = .ok w) (h2 : w.endTime = E + b - a)
    (h3 : Signal.resize w S E 0 = .ok w') (h4 : Node env.B w' S E) :
    Tr.alwUp env s a b z = .ok (w', w'.v (pl S)) := by
  obtain ⟨p, hp, hp'⟩ := h4.front
  unfold Tr.alwUp
  rw [if_neg (by rw [hze]; linarith)]
  simp only [h1, bind, Except.bind, h2, hs.1, hs.2]
  rw [min_eq_right (by linarith), max_eq_right hSE, h3]
  simp only [appendIfEmpty_ne h4.wf.ne, hp, hp']

theorem keeps_cut {T : Tr} {z : Signal} {f : ℚ → EReal} {a b S E : ℚ}
    (hm : Mark env (E + b) T z) (hz : Node env.B z (S + a) (E + b))
    (hf : Is z (S + a) (E + b) f)
    (h : S < E → Marked env.data (S + b) (E + b) T ∨ Bends f (S + a) (S + b) (E + b))
    (ha : 0 ≤ a) (hab : a ≤ b) (hSE : S ≤ E) (hu : E - b ≤ S + a) : KeepsSlope z (E - a) := by
  rcases hSE.lt_or_eq with hs | hs
  · rcases h hs with h | h
    · obtain ⟨p, hp, h⟩ := hm (S + b) (by linarith) h
      exact Or.inr (Or.inl ⟨p, hp, by linarith⟩)
    · refine keeps_of_bends hz hf fun r v d h1 h2 h3 => h r v d h1 (by linarith) h3
  · refine keeps_of_bends hz hf fun r v d h1 h2 h3 => ?_
    linarith

theorem lu_first (hL : Lin env n) (hsem : env.sem = .SPACE) (hne : env.data ≠ []) (T : Tr) :
    ∀ {S E : ℚ}, 0 ≤ S → S ≤ E → IsFormula n env.params T → After env none S E T →
    NoLongSlope .LINEAR env.data env.params S E T → Untrimmed env.params S E T → LU env S E T := by
  induction T with
  | atom s k l r =>
    intro S E h0 hSE hF ha _ _
    obtain ⟨T', p, a1, a2, a3, a4⟩ := atom_low hL hsem hne (h0.trans hSE) hSE hF ha (by simp)
    obtain ⟨T'', q, b1, b2, b3, b4⟩ := atom_up hL hsem hne (h0.trans hSE) hSE hF ha (by simp)
    obtain ⟨_, _, _, x, c1, c2, c3, c4⟩ := ha
    obtain rfl : s.z = x := c3
    obtain ⟨p', hp, hp'⟩ := c1.front
    rw [hp] at a4 b4
    obtain rfl := Except.ok.inj a4
    obtain rfl := Except.ok.inj b4
    exact ⟨⟨T', _, a1, ⟨a2, by rw [a3]; exact c1, by rw [a3]; exact c2, by rw [a3]; exact hp',
        by rw [a3]; exact .grid c4⟩⟩,
      ⟨T'', _, b1, ⟨b2, by rw [b3]; exact c1, by rw [b3]; exact c2, by rw [b3]; exact hp',
        by rw [b3]; exact .grid c4⟩⟩⟩
  | not s c ih =>
    intro S E h0 hSE hF ha hn hu
    obtain ⟨⟨c1, v1, l1, l2⟩, ⟨c2, v2, u1, u2⟩⟩ := ih h0 hSE hF ha.2 hn hu
    obtain ⟨p, hp, hp'⟩ := u2.node.not.front
    obtain ⟨q, hq, hq'⟩ := l2.node.not.front
    refine ⟨⟨.not { s with zlow := computeNot c2.st.zup } c2, p.value, ?_,
      ⟨⟨ha.1, u2.after⟩, u2.node.not, u2.is.not, hp', u2.mark.not⟩⟩,
      ⟨.not { s with zup := computeNot c1.st.zlow } c1, q.value, ?_,
      ⟨⟨ha.1, l2.after⟩, l2.node.not, l2.is.not, hq', l2.mark.not⟩⟩⟩
    · simp only [Tr.computeLow, u1, bind, Except.bind, if_neg u2.node.wf.ne, hp]
    · simp only [Tr.computeUp, l1, bind, Except.bind, if_neg l2.node.wf.ne, hq]
  | and s l r ih1 ih2 =>
    intro S E h0 hSE hF ha hn hu
    obtain ⟨⟨c1, v1, l1, l2⟩, ⟨c2, v2, u1, u2⟩⟩ := ih1 h0 hSE hF.1 ha.2.1 hn.1 hu.1
    obtain ⟨⟨d1, w1, m1, m2⟩, ⟨d2, w2, t1, t2⟩⟩ := ih2 h0 hSE hF.2 ha.2.2 hn.2 hu.2
    obtain ⟨z, w, p, a1, a2, a3, a4, a5, a6, a7, a8⟩ := andBound (-env.B) l2.node m2.node
    obtain ⟨z', w', p', b1, b2, b3, b4, b5, b6, b7, b8⟩ := andBound env.B u2.node t2.node
    have hlo : Tr.andLow env s c1.st.zlow d1.st.zlow = .ok w := by
      unfold Tr.andLow
      rw [l2.node.e, m2.node.e, min_self, ha.1.1]
      simp only [a1, bind, Except.bind, a3, appendIfEmpty_ne a4.wf.ne]
    have hup : Tr.andUp env s c2.st.zup d2.st.zup = .ok w' := by
      unfold Tr.andUp
      simp only [b1, bind, Except.bind, b2, ha.1.1, b3, appendIfEmpty_ne b4.wf.ne]
    refine ⟨⟨.and { s with zlow := w } c1 d1, p.value, ?_,
      ⟨⟨ha.1, l2.after, m2.after⟩, a4, l2.is.min m2.is a5, a7, .of_end a8⟩⟩,
      ⟨.and { s with zup := w' } c2 d2, p'.value, ?_,
      ⟨⟨ha.1, u2.after, t2.after⟩, b4, u2.is.min t2.is b5, b7, .of_end b8⟩⟩⟩
    · simp only [Tr.computeLow, l1, m1, bind, Except.bind, hlo, a6]
    · simp only [Tr.computeUp, u1, t1, bind, Except.bind, hup, b6]
  | or s l r ih1 ih2 =>
    intro S E h0 hSE hF ha hn hu
    obtain ⟨⟨c1, v1, l1, l2⟩, ⟨c2, v2, u1, u2⟩⟩ := ih1 h0 hSE hF.1 ha.2.1 hn.1 hu.1
    obtain ⟨⟨d1, w1, m1, m2⟩, ⟨d2, w2, t1, t2⟩⟩ := ih2 h0 hSE hF.2 ha.2.2 hn.2 hu.2
    obtain ⟨z, w, p, a1, a2, a3, a4, a5, a6, a7, a8⟩ := orBound (-env.B) l2.node m2.node
    obtain ⟨z', w', p', b1, b2, b3, b4, b5, b6, b7, b8⟩ := orBound env.B u2.node t2.node
    have hlo : Tr.orLow env s c1.st.zlow d1.st.zlow = .ok w := by
      unfold Tr.orLow
      simp only [a1, bind, Except.bind, a2, ha.1.1, a3, appendIfEmpty_ne a4.wf.ne]
    have hup : Tr.orUp env s c2.st.zup d2.st.zup = .ok w' := by
      unfold Tr.orUp
      rw [u2.node.e, t2.node.e, min_self, ha.1.1]
      simp only [b1, bind, Except.bind, b3, appendIfEmpty_ne b4.wf.ne]
    refine ⟨⟨.or { s with zlow := w } c1 d1, p.value, ?_,
      ⟨⟨ha.1, l2.after, m2.after⟩, a4, l2.is.max m2.is a5, a7, .of_end a8⟩⟩,
      ⟨.or { s with zup := w' } c2 d2, p'.value, ?_,
      ⟨⟨ha.1, u2.after, t2.after⟩, b4, u2.is.max t2.is b5, b7, .of_end b8⟩⟩⟩
    · simp only [Tr.computeLow, l1, m1, bind, Except.bind, hlo, a6]
    · simp only [Tr.computeUp, u1, t1, bind, Except.bind, hup, b6]
  | implies s l r ih1 ih2 =>
    intro S E h0 hSE hF ha hn hu
    obtain ⟨⟨c1, v1, l1, l2⟩, ⟨c2, v2, u1, u2⟩⟩ := ih1 h0 hSE hF.1 ha.2.1 hn.1 hu.1
    obtain ⟨⟨d1, w1, m1, m2⟩, ⟨d2, w2, t1, t2⟩⟩ := ih2 h0 hSE hF.2 ha.2.2 hn.2 hu.2
    obtain ⟨z, w, p, a1, a2, a3, a4, a5, a6, a7, a8⟩ := orBound (-env.B) u2.node.not m2.node
    obtain ⟨z', w', p', b1, b2, b3, b4, b5, b6, b7, b8⟩ := orBound env.B l2.node.not t2.node
    have hlo : Tr.impliesLow env s c2.st.zup d1.st.zlow = .ok w := by
      unfold Tr.impliesLow
      simp only [a1, bind, Except.bind, a2, ha.1.1, a3, appendIfEmpty_ne a4.wf.ne]
    have hup : Tr.impliesUp env s c1.st.zlow d2.st.zup = .ok w' := by
      unfold Tr.impliesUp
      simp only [b1, bind, Except.bind]
      rw [l2.node.not.e, t2.node.e, min_self, ha.1.1, b3]
      simp only [appendIfEmpty_ne b4.wf.ne]
    refine ⟨⟨.implies { s with zlow := w } c2 d1, p.value, ?_,
      ⟨⟨ha.1, u2.after, m2.after⟩, a4, u2.is.not.max m2.is a5, a7, .of_end a8⟩⟩,
      ⟨.implies { s with zup := w' } c1 d2, p'.value, ?_,
      ⟨⟨ha.1, l2.after, t2.after⟩, b4, l2.is.not.max t2.is b5, b7, .of_end b8⟩⟩⟩
    · simp only [Tr.computeLow, u1, m1, bind, Except.bind, hlo, a6]
    · simp only [Tr.computeUp, l1, t1, bind, Except.bind, hup, b6]
  | ev s I c ih =>
    intro S E h0 hSE hF ha hn hu
    obtain ⟨ha0, hab, hFc⟩ := hF
    set a := bound env.params I.beginStr I.begin with hadef
    set b := bound env.params I.stopStr I.stop with hbdef
    obtain ⟨hs, hac⟩ := ha
    rw [← hadef, ← hbdef] at hac
    have hE := h0.trans hSE
    by_cases hat : IsAtom c
    · have hu' := hu.2 hat
      cases c with
      | atom cs k l r =>
        have hcut : ∀ c, (some (E - b)) = some c → c ≤ E + b := by
          intro c hc
          have := Option.some.inj hc
          linarith
        obtain ⟨T', p, a1, a2, a3, a4⟩ := atom_low hL hsem hne (by linarith) (by linarith) hFc hac hcut
        obtain ⟨T'', q, b1, b2, b3, b4⟩ := atom_up hL hsem hne (by linarith) (by linarith) hFc hac hcut
        obtain ⟨_, _, _, x, c1, c2, c3, c4⟩ := hac
        have hze := (c3.facts c1 hcut).2
        obtain ⟨w, e1, e2, w', e3, e4, e5⟩ := c1.ev_cut (old := s.zlow) c2 ha0 hab hSE c3
          (fun h => keeps_cut (.grid c4) c1 c2 (fun hlt => hn.2 hlt h) ha0 hab hSE hu')
        obtain ⟨y, f1, f2, y', f3, f4, f5⟩ := c1.ev_cut (old := s.zup) c2 ha0 hab hSE c3
          (fun h => keeps_cut (.grid c4) c1 c2 (fun hlt => hn.2 hlt h) ha0 hab hSE hu')
        have hlo := evLow_of (env := env) hs hSE hE hab hze e1 e2 e3 e4
        have hup := evUp_of (env := env) hs hE hab hze f1 f2 f3 f4
        refine ⟨⟨.ev { s with zlow := w' } I T', _, ?_, ⟨⟨hs, a2⟩, e4, e5 hu', rfl, fun _ _ h => h.elim⟩⟩,
          ⟨.ev { s with zup := y' } I T'', _, ?_, ⟨⟨hs, b2⟩, f4, f5 hu', rfl, fun _ _ h => h.elim⟩⟩⟩
        · simp only [Tr.computeLow.eq_5, a1, bind, Except.bind, ivA_eq, ivB_eq, ← hadef, ← hbdef, a3, hlo]
          rfl
        · simp only [Tr.computeUp.eq_5, b1, bind, Except.bind, ivA_eq, ivB_eq, ← hadef, ← hbdef, b3, hup]
          rfl
      | _ => exact hat.elim
    · obtain ⟨⟨c1, v1, l1, l2⟩, ⟨c2, v2, u1, u2⟩⟩ := ih (S := S + a) (E := E + b) (by linarith)
        (by linarith) hFc (hac.uncut hat) hn.1 hu.1
      have hat1 : ¬ IsAtom c1 := by
        rw [← isAtom_forget, (Tr.forgetB_bounds c).1 _ _ l1, isAtom_forget]; exact hat
      have hat2 : ¬ IsAtom c2 := by
        rw [← isAtom_forget, (Tr.forgetB_bounds c).2 _ _ u1, isAtom_forget]; exact hat
      obtain ⟨w, e1, e2, w', e3, e4, e5⟩ := l2.node.evz (old := s.zlow) l2.is ha0 hab hSE
        (fun h h' => l2.mark.keeps l2.node l2.is (by linarith) (hn.2 h h'))
      obtain ⟨y, f1, f2, y', f3, f4, f5⟩ := u2.node.evz (old := s.zup) u2.is ha0 hab hSE
        (fun h h' => u2.mark.keeps u2.node u2.is (by linarith) (hn.2 h h'))
      have hlo := evLow_of (env := env) hs hSE hE hab l2.node.e e1 e2 e3 e4
      have hup := evUp_of (env := env) hs hE hab u2.node.e f1 f2 f3 f4
      refine ⟨⟨.ev { s with zlow := w' } I c1, _, ?_, ⟨⟨hs, l2.after.cut hat1⟩, e4, e5, rfl, fun _ _ h => h.elim⟩⟩,
        ⟨.ev { s with zup := y' } I c2, _, ?_, ⟨⟨hs, u2.after.cut hat2⟩, f4, f5, rfl, fun _ _ h => h.elim⟩⟩⟩
      · simp only [Tr.computeLow, l1, bind, Except.bind, ivA_eq, ivB_eq, ← hadef, ← hbdef, hlo]
        rfl
      · simp only [Tr.computeUp, u1, bind, Except.bind, ivA_eq, ivB_eq, ← hadef, ← hbdef, hup]
        rfl
  | alw s I c ih =>
    intro S E h0 hSE hF ha hn hu
    obtain ⟨ha0, hab, hFc⟩ := hF
    set a := bound env.params I.beginStr I.begin with hadef
    set b := bound env.params I.stopStr I.stop with hbdef
    obtain ⟨hs, hac⟩ := ha
    rw [← hadef, ← hbdef] at hac
    have hE := h0.trans hSE
    obtain ⟨⟨c1, v1, l1, l2⟩, ⟨c2, v2, u1, u2⟩⟩ := ih (S := S + a) (E := E + b) (by linarith)
      (by linarith) hFc hac hn.1 hu
    obtain ⟨w, e1, e2, w', e3, e4, e5⟩ := l2.node.alwz (old := s.zlow) l2.is ha0 hab hSE
      (fun h h' => l2.mark.keeps l2.node l2.is (by linarith) (hn.2 h h'))
    obtain ⟨y, f1, f2, y', f3, f4, f5⟩ := u2.node.alwz (old := s.zup) u2.is ha0 hab hSE
      (fun h h' => u2.mark.keeps u2.node u2.is (by linarith) (hn.2 h h'))
    have hlo := alwLow_of (env := env) hs hE hab l2.node.e e1 e2 e3 e4
    have hup := alwUp_of (env := env) hs hSE hE hab u2.node.e f1 f2 f3 f4
    refine ⟨⟨.alw { s with zlow := w' } I c1, _, ?_, ⟨⟨hs, l2.after⟩, e4, e5, rfl, fun _ _ h => h.elim⟩⟩,
      ⟨.alw { s with zup := y' } I c2, _, ?_, ⟨⟨hs, u2.after⟩, f4, f5, rfl, fun _ _ h => h.elim⟩⟩⟩
    · simp only [Tr.computeLow, l1, bind, Except.bind, ivA_eq, ivB_eq, ← hadef, ← hbdef, hlo]
      rfl
    · simp only [Tr.computeUp, u1, bind, Except.bind, ivA_eq, ivB_eq, ← hadef, ← hbdef, hup]
      rfl
  | _ => intro S E h0 hSE hF; exact hF.elim

end

/-! ## The whole evaluation -/

theorem plain_ok {D : List (List ℚ)} {P : Assoc ℚ} : ∀ {T : Tr} (s e : ℚ), PlainAtoms T →
    AtomsOk D P s e T := by
  intro T
  induction T with
  | atom => exact fun s e h => Or.inl h
  | not _ c ih => exact fun s e h => ih s e h
  | ev _ _ c ih | alw _ _ c ih => exact fun s e h => ih _ _ h
  | and _ l r h1 h2 | or _ l r h1 h2 | implies _ l r h1 h2 =>
    exact fun s e h => ⟨h1 s e h.1, h2 s e h.2⟩
  | untl _ l _ r h1 h2 => exact fun s e h => ⟨h1 _ _ h.1, h2 _ _ h.2⟩
  | _ => exact fun _ _ h => h.elim

/-- The environment of an evaluation. -/
def Monitor.envOf (g : Globals) (m : Monitor) : Env := ⟨g.B, m.sem, m.ip, m.data, m.params⟩

theorem ready_prep {g : Globals} {m : Monitor} {n : ℕ} {T : Tr} {s e : ℚ}
    (h : Ready .LINEAR n g.B m T s e) (hk : AtomsOk m.data m.params s e T)
    (hn : NoLongSlope .LINEAR m.data m.params s e T) :
    Lin (m.envOf g) n ∧ ∃ T' v, Tr.computeRob (m.envOf g) (Monitor.prepare m.params s e T) = .ok (T', v) ∧
      Outcome (m.envOf g) s e T T' v ∧ T'.forgetB false = T.forgetB false := by
  have hL : Lin (m.envOf g) n := ⟨h.interpol, h.rows, h.names⟩
  have hp : (Monitor.prepare m.params s e T).forgetB false = T.forgetB false :=
    Tr.forgetB_prepare (by simp [h.names]) s e T
  set T0 := Monitor.prepare m.params s e T with hT0
  obtain ⟨T', v, a1, a2⟩ := rob_first hL h.sem T0 (S := s) (E := e) h.start h.stop
    (by rw [← reach_forget, hp, reach_forget]; exact h.covers)
    (by rw [← isFormula_forget, hp, isFormula_forget]; exact h.shape)
    (fresh_prepare _ T s e)
    (by rw [← atomsOk_forget, hp, atomsOk_forget]; exact hk)
    (by rw [← atomsWithin_forget, hp, atomsWithin_forget]; exact h.within)
    (by rw [← noLongSlope_forget, hp, noLongSlope_forget]; exact hn)
  refine ⟨hL, T', v, a1, ⟨a2.after, a2.node, ?_, a2.val, fun u h2 hm => ?_⟩,
    (Tr.forgetB_computeRob T0 a1).trans hp⟩
  · rw [← rob_forget, ← hp, rob_forget]
    exact a2.is
  · refine a2.mark u h2 ?_
    rw [← marked_forget, hp, marked_forget]
    exact hm

/-- Whatever the bound computations do to the tree, the robustness signal stays. -/
theorem z_low_up {env : Env} {n : ℕ} {P : Assoc ℚ} (T : Tr) (hF : IsFormula n P T) (hA : ¬ IsAtom T) :
    (∀ T' v, Tr.computeLow env T = .ok (T', v) → T'.st.z = T.st.z) ∧
    (∀ T' v, Tr.computeUp env T = .ok (T', v) → T'.st.z = T.st.z) := by
  cases T with
  | atom => exact absurd trivial hA
  | not s c =>
    constructor <;> intro T' v h
    · simp only [Tr.computeLow, bind_eq_ok, Prod.exists] at h
      obtain ⟨c', _, _, h⟩ := h
      split_ifs at h
      · simp only [bind_eq_ok, Except.ok.injEq, Prod.mk.injEq] at h
        obtain ⟨_, _, rfl, _⟩ := h
        rfl
      · simp only [bind_eq_ok, Except.ok.injEq, Prod.mk.injEq] at h
        obtain ⟨_, _, rfl, _⟩ := h
        rfl
    · simp only [Tr.computeUp, bind_eq_ok, Prod.exists] at h
      obtain ⟨c', _, _, h⟩ := h
      split_ifs at h
      · simp only [bind_eq_ok, Except.ok.injEq, Prod.mk.injEq] at h
        obtain ⟨_, _, rfl, _⟩ := h
        rfl
      · simp only [bind_eq_ok, Except.ok.injEq, Prod.mk.injEq] at h
        obtain ⟨_, _, rfl, _⟩ := h
        rfl
  | and s l r =>
    constructor <;> intro T' v h <;>
      (simp only [Tr.computeLow, Tr.computeUp, bind_eq_ok, Except.ok.injEq, Prod.mk.injEq, Prod.exists] at h
       obtain ⟨_, _, _, _, _, _, _, _, _, _, rfl, _⟩ := h
       rfl)
  | or s l r =>
    constructor <;> intro T' v h <;>
      (simp only [Tr.computeLow, Tr.computeUp, bind_eq_ok, Except.ok.injEq, Prod.mk.injEq, Prod.exists] at h
       obtain ⟨_, _, _, _, _, _, _, _, _, _, rfl, _⟩ := h
       rfl)
  | implies s l r =>
    constructor <;> intro T' v h <;>
      (simp only [Tr.computeLow, Tr.computeUp, bind_eq_ok, Except.ok.injEq, Prod.mk.injEq, Prod.exists] at h
       obtain ⟨_, _, _, _, _, _, _, _, _, _, rfl, _⟩ := h
       rfl)
  | ev s I c =>
    constructor <;> intro T' v h <;>
      (simp only [Tr.computeLow, Tr.computeUp, bind_eq_ok, Except.ok.injEq, Prod.mk.injEq, Prod.exists] at h
       obtain ⟨_, _, _, _, _, _, rfl, _⟩ := h
       rfl)
  | alw s I c =>
    constructor <;> intro T' v h <;>
      (simp only [Tr.computeLow, Tr.computeUp, bind_eq_ok, Except.ok.injEq, Prod.mk.injEq, Prod.exists] at h
       obtain ⟨_, _, _, _, _, _, rfl, _⟩ := h
       rfl)
  | _ => exact hF.elim

theorem After.atom_z {env : Env} {S E : ℚ} {T : Tr} (h : After env none S E T) (hA : IsAtom T) :
    Node env.B T.st.z S E ∧ Is T.st.z S E (rob .LINEAR env.data env.params T) := by
  cases T with
  | atom s k l r =>
    obtain ⟨_, _, _, x, h1, h2, h3, _⟩ := h
    obtain rfl : s.z = x := h3
    exact ⟨h1, h2⟩
  | _ => exact hA.elim

/-- The robustness signal after all three computations. -/
theorem z_after {env : Env} {n : ℕ} {P : Assoc ℚ} {T T' : Tr} {v : ℚ} {S E : ℚ}
    (hF : IsFormula n P T) (hN : Node env.B T.st.z S E)
    (hI : Is T.st.z S E (rob .LINEAR env.data env.params T))
    (h : Tr.computeLow env T = .ok (T', v) ∨ Tr.computeUp env T = .ok (T', v))
    (hA : After env none S E T') :
    Node env.B T'.st.z S E ∧ Is T'.st.z S E (rob .LINEAR env.data env.params T) := by
  have hf : T'.forgetB false = T.forgetB false :=
    h.elim ((Tr.forgetB_bounds T).1 _ _) ((Tr.forgetB_bounds T).2 _ _)
  have hr : rob .LINEAR env.data env.params T' = rob .LINEAR env.data env.params T := by
    rw [← rob_forget, hf, rob_forget]
  by_cases ha : IsAtom T
  · have := hA.atom_z (by rw [← isAtom_forget, hf, isAtom_forget]; exact ha)
    rwa [hr] at this
  · have hz := z_low_up (env := env) T hF ha
    have : T'.st.z = T.st.z := h.elim (hz.1 _ _) (hz.2 _ _)
    rw [this]
    exact ⟨hN, hI⟩

/-- A LINEAR evaluation returns the robustness, the same number as both bounds, and the whole
robustness signal. -/
theorem run3_exact {g : Globals} {m : Monitor} {n : ℕ} {T : Tr} {s e : ℚ}
    (h : Ready .LINEAR n g.B m T s e) (hk : AtomsOk m.data m.params s e T)
    (hn : NoLongSlope .LINEAR m.data m.params s e T) (hu : Untrimmed m.params s e T) :
    ∃ T' v, Monitor.run3 (m.envOf g) (Monitor.prepare m.params s e T) = .ok (T', v, v, v) ∧
      rob .LINEAR m.data m.params T s = er v ∧ Node g.B T'.st.z s e ∧
      Is T'.st.z s e (rob .LINEAR m.data m.params T) := by
  obtain ⟨hL, T1, v, a1, a2, a3⟩ := ready_prep h hk hn
  have hne : m.data ≠ [] := h.covers.facts.1
  have hF1 : IsFormula n m.params T1 := by rw [← isFormula_forget, a3, isFormula_forget]; exact h.shape
  have hr1 : rob .LINEAR m.data m.params T1 = rob .LINEAR m.data m.params T := by
    rw [← rob_forget, a3, rob_forget]
  obtain ⟨⟨T2, lo, b1, b2⟩, _⟩ := lu_first hL h.sem hne T1 h.start h.stop hF1 a2.after
    (by rw [← noLongSlope_forget, a3, noLongSlope_forget]; exact hn)
    (by rw [← untrimmed_forget, a3, untrimmed_forget]; exact hu)
  have hf2 : T2.forgetB false = T.forgetB false := ((Tr.forgetB_bounds T1).1 _ _ b1).trans a3
  have hr2 : rob .LINEAR m.data m.params T2 = rob .LINEAR m.data m.params T := by
    rw [← rob_forget, hf2, rob_forget]
  have hF2 : IsFormula n m.params T2 := by rw [← isFormula_forget, hf2, isFormula_forget]; exact h.shape
  obtain ⟨_, ⟨T3, up, c1, c2⟩⟩ := lu_first hL h.sem hne T2 h.start h.stop hF2 b2.after
    (by rw [← noLongSlope_forget, hf2, noLongSlope_forget]; exact hn)
    (by rw [← untrimmed_forget, hf2, untrimmed_forget]; exact hu)
  have hlo : lo = v := by
    apply er_inj
    rw [← a2.eq, b2.val, ← b2.is s le_rfl h.stop]
    exact congrFun hr1 s
  have hup : up = v := by
    apply er_inj
    rw [← a2.eq, c2.val, ← c2.is s le_rfl h.stop]
    exact congrFun hr2 s
  obtain ⟨n2, i2⟩ := z_after hF1 a2.node (by rw [show rob .LINEAR (m.envOf g).data (m.envOf g).params T1 = _ from hr1]; exact a2.is) (Or.inl b1) b2.after
  obtain ⟨n3, i3⟩ := z_after hF2 n2 (by
    rw [show rob .LINEAR (m.envOf g).data (m.envOf g).params T2 = rob .LINEAR (m.envOf g).data (m.envOf g).params T1 from hr2.trans hr1.symm]
    exact i2) (Or.inr c1) c2.after
  refine ⟨T3, v, ?_, a2.eq, n3, ?_⟩
  · subst hlo
    subst hup
    simp only [Monitor.run3, a1, b1, c1, bind, Except.bind]
  · rw [← hr2]; exact i3

/-- The same as a statement about the monitor. -/
theorem evalRob_exact {g : Globals} {m : Monitor} {n : ℕ} {T : Tr} {s e : ℚ}
    (h : Ready .LINEAR n g.B m T s e) (hk : AtomsOk m.data m.params s e T)
    (hn : NoLongSlope .LINEAR m.data m.params s e T) (hu : Untrimmed m.params s e T) :
    ∃ g' m' v z, m.evalRob g s e = (g', m', .ok v) ∧ m'.rob = v ∧ m'.lowerRob = v ∧ m'.upperRob = v ∧
      m'.getSignal = .ok z ∧
      rob .LINEAR m.data m.params T s = er v ∧ Node g.B z s e ∧
      Is z s e (rob .LINEAR m.data m.params T) := by
  obtain ⟨T', v, h1, h2, h3, h4⟩ := run3_exact h hk hn hu
  refine ⟨{ g with sem := m.sem, ip := m.ip },
    { m with formula := some T', rob := v, lowerRob := v, upperRob := v },
    v, T'.st.z, ?_, rfl, rfl, rfl, rfl, h2, h3, h4⟩
  · unfold Monitor.evalRob
    rw [h.formula]
    simp only
    rw [show Monitor.run3 ⟨g.B, m.sem, m.ip, m.data, m.params⟩ (Monitor.prepare m.params s e T) = _ from h1]

/-- Also when an `ev` shortens an atom: if the evaluation returns, its result is right. -/
theorem evalRob_exact_ret {g g' : Globals} {m m' : Monitor} {n : ℕ} {T : Tr} {s e v : ℚ}
    (h : Ready .LINEAR n g.B m T s e) (hk : AtomsOk m.data m.params s e T)
    (hn : NoLongSlope .LINEAR m.data m.params s e T) (hv : m.evalRob g s e = (g', m', .ok v)) :
    rob .LINEAR m.data m.params T s = er v := by
  obtain ⟨hL, T1, w, a1, a2, a3⟩ := ready_prep h hk hn
  unfold Monitor.evalRob at hv
  rw [h.formula] at hv
  simp only at hv
  split at hv
  · rename_i T' r lo up hr
    simp only [Monitor.run3, bind_eq_ok, Prod.exists] at hr
    obtain ⟨T1', w', k1, T2, lo', k2, T3, up', k3, k4⟩ := hr
    rw [show Tr.computeRob ⟨g.B, m.sem, m.ip, m.data, m.params⟩ (Monitor.prepare m.params s e T) = _ from a1] at k1
    simp only [Except.ok.injEq, Prod.mk.injEq] at k1 k4 hv
    rw [show rob .LINEAR m.data m.params T s = er w from a2.eq, k1.2, k4.2.1, hv.2.2]
  · simp at hv

end STLRom
