import Verif.Proofs.Exact
import Verif.Proofs.ExprEval

/-!
# Formulas without until, evaluated on continuous signals
-/

namespace STLRom
open Signal Spec

/-! ## What a run leaves unchanged -/

theorem expr_forget (ip : Interpol) (D : List (List ℚ)) (P : Assoc ℚ) :
    ∀ (T : Tr) (t : ℚ), expr ip D P (T.forgetB false) t = expr ip D P T t := by
  intro T
  induction T with
  | const s p v td =>
    intro t
    by_cases h : p = "" <;> simp [Tr.forgetB, expr, number, h]
  | _ => intro t; simp_all [Tr.forgetB, expr]

theorem rob_forget (ip : Interpol) (D : List (List ℚ)) (P : Assoc ℚ) :
    ∀ (T : Tr), rob ip D P (T.forgetB false) = rob ip D P T := by
  intro T
  induction T with
  | atom s k l r => funext t; simp [Tr.forgetB, rob, expr_forget]
  | _ => funext t; simp_all [Tr.forgetB, rob]

theorem isExpr_forget (n : ℕ) : ∀ T : Tr, IsExpr n (T.forgetB false) ↔ IsExpr n T := by
  intro T
  induction T <;> simp_all [Tr.forgetB, IsExpr]

theorem isFormula_forget (n : ℕ) (P : Assoc ℚ) :
    ∀ T : Tr, IsFormula n P (T.forgetB false) ↔ IsFormula n P T := by
  intro T
  induction T <;> simp_all [Tr.forgetB, IsFormula, isExpr_forget]

theorem isAtom_forget (T : Tr) : IsAtom (T.forgetB false) ↔ IsAtom T := by
  cases T <;> simp [Tr.forgetB, IsAtom]

theorem marked_forget (D : List (List ℚ)) (u w : ℚ) :
    ∀ T : Tr, Marked D u w (T.forgetB false) ↔ Marked D u w T := by
  intro T
  induction T <;> simp_all [Tr.forgetB, Marked]

theorem noLongSlope_forget (ip : Interpol) (D : List (List ℚ)) (P : Assoc ℚ) :
    ∀ (T : Tr) (s e : ℚ), NoLongSlope ip D P s e (T.forgetB false) ↔ NoLongSlope ip D P s e T := by
  intro T
  induction T <;> intro s e <;> simp_all [Tr.forgetB, NoLongSlope, rob_forget, marked_forget]

theorem untrimmed_forget (P : Assoc ℚ) :
    ∀ (T : Tr) (s e : ℚ), Untrimmed P s e (T.forgetB false) ↔ Untrimmed P s e T := by
  intro T
  induction T <;> intro s e <;> simp_all [Tr.forgetB, Untrimmed, isAtom_forget]

theorem isLeaf_forget (T : Tr) : IsLeaf (T.forgetB false) ↔ IsLeaf T := by
  cases T <;> simp [Tr.forgetB, IsLeaf]

theorem isConst_forget : ∀ T : Tr, IsConst (T.forgetB false) ↔ IsConst T := by
  intro T
  induction T <;> simp_all [Tr.forgetB, IsConst]

theorem isAffine_forget : ∀ T : Tr, IsAffine (T.forgetB false) ↔ IsAffine T := by
  intro T
  induction T <;> simp_all [Tr.forgetB, IsAffine, isConst_forget]

theorem atomsOk_forget (D : List (List ℚ)) (P : Assoc ℚ) :
    ∀ (T : Tr) (s e : ℚ), AtomsOk D P s e (T.forgetB false) ↔ AtomsOk D P s e T := by
  intro T
  induction T <;> intro s e <;> simp_all [Tr.forgetB, AtomsOk, isLeaf_forget, isAffine_forget]

theorem atomsWithin_forget (ip : Interpol) (B : ℚ) (D : List (List ℚ)) (P : Assoc ℚ) :
    ∀ (T : Tr) (s e : ℚ), AtomsWithin ip B D P s e (T.forgetB false) ↔ AtomsWithin ip B D P s e T := by
  intro T
  induction T <;> intro s e <;> simp_all [Tr.forgetB, AtomsWithin, expr_forget]

theorem reach_forget (P : Assoc ℚ) : ∀ T : Tr, reach P (T.forgetB false) = reach P T := by
  intro T
  induction T <;> simp_all [Tr.forgetB, reach]

theorem reach_nonneg {n : ℕ} {P : Assoc ℚ} : ∀ {T : Tr}, IsFormula n P T → 0 ≤ reach P T := by
  intro T
  induction T with
  | not _ c ih => exact ih
  | and _ l r ih _ | or _ l r ih _ | implies _ l r ih _ => exact fun h => (ih h.1).trans (le_max_left _ _)
  | ev _ I c ih | alw _ I c ih =>
    intro h
    exact add_nonneg (h.1.trans h.2.1) (ih h.2.2)
  | untl => exact fun h => h.elim
  | _ => intro h; simp [reach]

/-! ## Atoms -/

theorem Pieces.vals {f : ℚ → ℚ} {E : ℚ} : ∀ {l : List Sample}, Pieces f E l →
    ∀ p ∈ l, f p.time = p.value
  | [], _ => by simp
  | p :: l, h => by
    intro q hq
    rcases List.mem_cons.1 hq with rfl | hq
    · exact h.value
    · exact h.tail.vals q hq

theorem node_of_pieces {f : ℚ → ℚ} {S E B : ℚ} {l : List Sample} (hl : l ≠ [])
    (hp : Pieces f E l) (hS : ∀ p, l.head? = some p → p.time = S)
    (hB : ∀ t, S ≤ t → t ≤ E → -B ≤ f t ∧ f t ≤ B) :
    Node B ⟨l, S, E⟩ S E ∧ Is ⟨l, S, E⟩ S E (fun t => er (f t)) := by
  obtain ⟨p, l', rfl⟩ := List.exists_cons_of_ne_nil hl
  have hpS := hS p rfl
  have hv : ∀ τ, pl S ≤ τ → τ ≤ pl E → (⟨p :: l', S, E⟩ : Signal).v τ = f τ.time := by
    intro τ a b
    apply Signal.v_of_val
    exact hp.val τ (by rw [hpS]; exact a) b
  have hsort : Sorted (p :: l') := hp.sinc.imp le_of_lt
  have hge : ∀ q ∈ p :: l', S ≤ q.time := by
    intro q hq
    rcases List.mem_cons.1 hq with rfl | hq
    · exact hpS.ge
    · rw [← hpS]; exact ((List.pairwise_cons.1 hp.sinc).1 q hq).le
  refine ⟨⟨rfl, rfl, ⟨by simp, by simpa using hpS, hsort, fun q hq => hp.le_end q hq⟩,
    ⟨fun t a b => ?_, fun q hq => ?_⟩, fun t a b => ?_⟩, fun t a b => ?_⟩
  · have a' : S < t := a
    have b' : t ≤ E := b
    rw [hv _ (by simpa using a') (by simpa [le_pl_iff] using b'), hv _ (by simpa using a'.le) (by simpa using b')]
    rfl
  · rw [hv _ (by simpa using hge q hq) (by simpa using hp.le_end q hq)]
    exact (hp.vals q hq).symm
  · rw [hv _ (by simpa using a) (by simpa using b)]
    exact hB t a b
  · rw [hv _ (by simpa using a) (by simpa using b)]
    rfl

/-- The sample of an atom. -/
def atomS (k : Cmp) (p q : Sample) : Sample :=
  match k with
  | .less => ⟨p.time, q.value - p.value, q.derivative - p.derivative⟩
  | .greater => ⟨p.time, p.value - q.value, p.derivative - q.derivative⟩

theorem atomS_time (k : Cmp) (p q : Sample) : (atomS k p q).time = p.time := by cases k <;> rfl

theorem atomLoop_eq (ip : Interpol) (k : Cmp) : ∀ (l r : List Sample) (z : Signal),
    Tr.atomLoop ip k z l r = appendSamples ip z (comb (atomS k) l r)
  | [], r, z => by cases r <;> rfl
  | p :: l, [], z => rfl
  | p :: l, q :: r, z => by
    have ih := atomLoop_eq ip k l r
    cases k
    · show (appendSample ip z p.time (q.value - p.value) (q.derivative - p.derivative) >>=
        fun z' => Tr.atomLoop ip .less z' l r) = _
      simp only [ih]
      rfl
    · show (appendSample ip z p.time (p.value - q.value) (p.derivative - q.derivative) >>=
        fun z' => Tr.atomLoop ip .greater z' l r) = _
      simp only [ih]
      rfl

/-- A formula node's times. -/
def Spn (S E : ℚ) (s : St) : Prop := s.start = S ∧ s.stop = E

/-- An atom's signal, possibly shortened from the front. -/
def Cut (x z : Signal) (E : ℚ) : Option ℚ → Prop
  | none => z = x
  | some c => Signal.resize x c E 0 = .ok z

/-- A formula tree after `compute_robustness`. -/
def After (env : Env) : Option ℚ → ℚ → ℚ → Tr → Prop
  | cut, S, E, .atom s k l r => Spn S E s ∧ EAfter env.data S E l ∧ EAfter env.data S E r ∧
      ∃ x, Node env.B x S E ∧ Is x S E (rob .LINEAR env.data env.params (.atom s k l r)) ∧
        Cut x s.z E cut ∧ times x.samples = grid env.data S E
  | _, S, E, .not s c => Spn S E s ∧ After env none S E c
  | _, S, E, .and s l r | _, S, E, .or s l r | _, S, E, .implies s l r =>
      Spn S E s ∧ After env none S E l ∧ After env none S E r
  | _, S, E, .ev s I c => Spn S E s ∧
      After env (some (E - bound env.params I.stopStr I.stop)) (S + bound env.params I.beginStr I.begin)
        (E + bound env.params I.stopStr I.stop) c
  | _, S, E, .alw s I c => Spn S E s ∧
      After env none (S + bound env.params I.beginStr I.begin)
        (E + bound env.params I.stopStr I.stop) c
  | _, _, _, _ => False

/-- The combination of two signals has a sample at its end. -/
theorem simplify_mark {x z : Signal} (h : Signal.simplify x = .ok z) :
    ∃ p ∈ z.samples, x.endTime ≤ p.time := by
  unfold Signal.simplify at h
  split at h
  · cases h
  · obtain ⟨l, _, h⟩ := bind_eq_ok.1 h
    split at h
    · cases h
    · rename_i b hb
      split_ifs at h with hlt
      · obtain rfl := Except.ok.inj h
        exact ⟨⟨x.endTime, b.valueAt x.endTime, 0⟩, by simp, le_rfl⟩
      · obtain rfl := Except.ok.inj h
        exact ⟨b, List.mem_of_getLast? hb, not_lt.1 hlt⟩

theorem computeAndM_mark {x y z : Signal} (h : computeAndM x y = .ok z) :
    ∃ p ∈ z.samples, min x.endTime y.endTime ≤ p.time := by
  simp only [computeAndM, fmin_eq, fmax_eq] at h
  obtain ⟨_, _, h⟩ := bind_eq_ok.1 h
  obtain ⟨_, _, h⟩ := bind_eq_ok.1 h
  obtain ⟨_, _, h⟩ := bind_eq_ok.1 h
  exact simplify_mark h

theorem computeOrM_mark {x y z : Signal} (h : computeOrM x y = .ok z) :
    ∃ p ∈ z.samples, min x.endTime y.endTime ≤ p.time := by
  simp only [computeOrM, fmin_eq, fmax_eq] at h
  obtain ⟨_, _, h⟩ := bind_eq_ok.1 h
  obtain ⟨_, _, h⟩ := bind_eq_ok.1 h
  obtain ⟨_, _, h⟩ := bind_eq_ok.1 h
  exact simplify_mark h

/-- The samples that `Marked` speaks of. -/
def Mark (env : Env) (E : ℚ) (T : Tr) (z : Signal) : Prop :=
  ∀ u, u ≤ E → Marked env.data u E T → ∃ p ∈ z.samples, u ≤ p.time

theorem Mark.keeps {env : Env} {S E u : ℚ} {T : Tr} {z : Signal} {f : ℚ → EReal}
    (hm : Mark env E T z) (hz : Node env.B z S E) (hf : Is z S E f) (h2 : u ≤ E)
    (h : Marked env.data u E T ∨ Bends f S u E) : KeepsSlope z u := by
  rcases h with h | h
  · exact Or.inr (Or.inl (hm u h2 h))
  · exact keeps_of_bends hz hf h

theorem Mark.of_end {env : Env} {E : ℚ} {T : Tr} {z : Signal} (h : ∃ p ∈ z.samples, E ≤ p.time) :
    Mark env E T z := fun u h2 _ => by
  obtain ⟨p, hp, h⟩ := h
  exact ⟨p, hp, h2.trans h⟩

theorem Mark.not {env : Env} {E : ℚ} {s : St} {T : Tr} {z : Signal} (h : Mark env E T z) :
    Mark env E (.not s T) (computeNot z) := fun u h2 hm => by
  obtain ⟨p, hp, h⟩ := h u h2 hm
  exact ⟨⟨p.time, -p.value, -p.derivative⟩, List.mem_map.2 ⟨p, hp, rfl⟩, h⟩

theorem Mark.grid {env : Env} {S E : ℚ} {s : St} {k : Cmp} {l r : Tr} {z : Signal}
    (h : times z.samples = grid env.data S E) : Mark env E (.atom s k l r) z := fun u _ hm => by
  obtain ⟨row, hr, t, ht, h2, h3⟩ := hm
  obtain rfl : rowTime row = t := by cases row <;> simp_all [rowTime]
  have hin : ∃ t ∈ times z.samples, u ≤ t := by
    rw [h]
    by_cases hs : S < rowTime row
    · refine ⟨rowTime row, ?_, h2⟩
      simp only [STLRom.grid, List.mem_cons, List.mem_filter, List.mem_map, decide_eq_true_eq]
      exact Or.inr ⟨⟨row, hr, rfl⟩, hs, h3⟩
    · exact ⟨S, by simp [STLRom.grid], h2.trans (not_lt.1 hs)⟩
  obtain ⟨t, ht, hu⟩ := hin
  obtain ⟨p, hp, rfl⟩ := List.mem_map.1 ht
  exact ⟨p, hp, hu⟩

/-- The outcome of evaluating a formula node. -/
structure Outcome (env : Env) (S E : ℚ) (T T' : Tr) (r : ℚ) : Prop where
  after : After env none S E T'
  node : Node env.B T'.st.z S E
  is : Is T'.st.z S E (rob .LINEAR env.data env.params T)
  val : r = T'.st.z.v (pl S)
  mark : Mark env E T T'.st.z

theorem Outcome.eq {env : Env} {S E : ℚ} {T T' : Tr} {r : ℚ} (h : Outcome env S E T T' r) :
    rob .LINEAR env.data env.params T S = er r := by
  rw [h.is S le_rfl h.node.le, h.val]

/-- The robustness of an unchanged formula. -/
theorem rob_eq_of_run {env : Env} {T T' : Tr} {r : ℚ} (h : Tr.computeRob env T = .ok (T', r)) :
    rob .LINEAR env.data env.params T' = rob .LINEAR env.data env.params T := by
  rw [← rob_forget _ _ _ T', Tr.forgetB_computeRob T h, rob_forget]

theorem times_head {D : List (List ℚ)} {S E : ℚ} {l : List Sample} (h : times l = grid D S E) :
    l ≠ [] ∧ ∀ p, l.head? = some p → p.time = S := by
  cases l with
  | nil => simp [grid] at h
  | cons p l =>
    simp only [times, List.map_cons, grid, List.cons.injEq] at h
    refine ⟨by simp, fun q hq => ?_⟩
    simp only [List.head?_cons, Option.some.injEq] at hq
    rw [← hq]; exact h.1

section
variable {env : Env} {n : ℕ}

theorem atom_first (hL : Lin env n) (hsem : env.sem = .SPACE) {S E : ℚ} (hc : Covers env.data S E)
    (hE : 0 ≤ E) (hSE : S ≤ E) {s : St} {k : Cmp} {l r : Tr}
    (hF : IsFormula n env.params (.atom s k l r)) (hf : Fresh env.params S E (.atom s k l r))
    (hk : AtomsOk env.data env.params S E (.atom s k l r))
    (hB : AtomsWithin .LINEAR env.B env.data env.params S E (.atom s k l r)) :
    ∃ T' v, Tr.computeRob env (.atom s k l r) = .ok (T', v) ∧ Outcome env S E (.atom s k l r) T' v ∧
      times T'.st.z.samples = grid env.data S E := by
  have hkl : EOk env.data S E l := hk.imp (·.1) (fun h => ⟨h.1, h.2.2⟩)
  have hkr : EOk env.data S E r := hk.imp (·.2) (fun h => ⟨h.2.1, h.2.2⟩)
  obtain ⟨l', v1, a1, a2, a3⟩ := expr_first hL hc hE hSE l hF.1 hf.2.1 hkl
  obtain ⟨r', v2, b1, b2, b3⟩ := expr_first hL hc hE hSE r hF.2 hf.2.2 hkr
  obtain ⟨f1, f2, f3, f4, f5⟩ := hf.1
  have htl := a2.st.2.2.2.2
  have htr := b2.st.2.2.2.2
  have ht : times l'.st.z.samples = times r'.st.z.samples := htl.trans htr.symm
  have hP : Pieces (fun t => margin k (expr .LINEAR env.data env.params l t)
      (expr .LINEAR env.data env.params r t)) E (comb (atomS k) l'.st.z.samples r'.st.z.samples) := by
    refine comb_pieces (atomS_time k) ?_ ht a3 b3
    intro p q x e1 _ _ e2 e3 _ _
    rw [e2, e3]
    cases k <;> simp only [margin, atomS, Sample.valueAt, e1] <;> ring
  have hT : times (comb (atomS k) l'.st.z.samples r'.st.z.samples) = grid env.data S E := by
    rw [comb_times (atomS_time k) ht, htl]
  obtain ⟨hne, hhd⟩ := times_head hT
  obtain ⟨hN, hI⟩ := node_of_pieces hne hP hhd hB
  set L := comb (atomS k) l'.st.z.samples r'.st.z.samples with hLdef
  obtain ⟨p, m, hpm⟩ := List.exists_cons_of_ne_nil hne
  obtain ⟨q, hq⟩ : ∃ q, (p :: m).getLast? = some q := ⟨_, List.getLast?_eq_some_getLast (by simp)⟩
  have hz : Tr.atomRob env k s.z l'.st.z r'.st.z = .ok ⟨L, S, E⟩ := by
    unfold Tr.atomRob
    rw [atomLoop_eq, hL.ip, f3, appendSamples_empty hP.sinc, hsem]
    show Except.ok _ = _
    rw [hpm, relinkSig_eq hq, ← hpm, hP.relink_eq, a2.st.2.2.2.1,
      hhd p (by rw [hpm]; rfl)]
  refine ⟨.atom { s with z := ⟨L, S, E⟩ } k l' r', p.value, ?_, ⟨⟨⟨f1, f2⟩, a2, b2, ⟨L, S, E⟩, hN, ?_, rfl, hT⟩, hN, hI, ?_, .grid hT⟩, hT⟩
  · simp only [Tr.computeRob, a1, b1, bind, Except.bind, hz, Signal.front, hpm]
  · intro t c d
    rw [← hI t c d]
    simp only [rob]
    rw [← expr_forget _ _ _ l', Tr.forgetB_computeRob l a1, expr_forget, ← expr_forget _ _ _ r',
      Tr.forgetB_computeRob r b1, expr_forget]
  · have := hN.cg.vc p (by rw [hpm]; simp)
    rw [hhd p (by rw [hpm]; rfl)] at this
    exact this

theorem covers_mono {D : List (List ℚ)} {s e s' e' : ℚ} (h : Covers D s e) (hs : s ≤ s')
    (he : e' ≤ e) : Covers D s' e' := by
  obtain ⟨⟨r, t, h1, h2, h3⟩, ⟨r', t', h4, h5, h6⟩⟩ := h
  exact ⟨⟨r, t, h1, h2, h3.trans hs⟩, ⟨r', t', h4, h5, he.trans h6⟩⟩

theorem After.setZ {S E c : ℚ} {T : Tr} {z : Signal} (h : After env none S E T)
    (hN : Node env.B T.st.z S E) (hr : Signal.resize T.st.z c E 0 = .ok z) :
    After env (some c) S E (Tr.setZ z T) := by
  cases T with
  | atom s k l r =>
    obtain ⟨h1, h2, h3, x, h4, h5, h6, h7⟩ := h
    refine ⟨h1, h2, h3, x, h4, h5, ?_, h7⟩
    simp only [Cut] at h6 ⊢
    rw [← h6]; exact hr
  | not => exact h
  | and => exact h
  | or => exact h
  | implies => exact h
  | ev => exact h
  | alw => exact h
  | _ => exact h.elim

theorem rob_first (hL : Lin env n) (hsem : env.sem = .SPACE) (T : Tr) : ∀ {S E : ℚ}, 0 ≤ S → S ≤ E →
    Covers env.data S (E + reach env.params T) → IsFormula n env.params T →
    Fresh env.params S E T → AtomsOk env.data env.params S E T →
    AtomsWithin .LINEAR env.B env.data env.params S E T →
    NoLongSlope .LINEAR env.data env.params S E T →
    ∃ T' v, Tr.computeRob env T = .ok (T', v) ∧ Outcome env S E T T' v := by
  induction T with
  | atom s k l r =>
    intro S E h0 hSE hc hF hf hk hB _
    obtain ⟨T', v, a1, a2, _⟩ := atom_first hL hsem (covers_mono hc le_rfl (by simp [reach])) (h0.trans hSE) hSE
      hF hf hk hB
    exact ⟨T', v, a1, a2⟩
  | not s c ih =>
    intro S E h0 hSE hc hF hf hk hB hn
    obtain ⟨c', v, a1, a2⟩ := ih h0 hSE hc hF hf.2 hk hB hn
    obtain ⟨p, hp, hpv⟩ := a2.node.not.front
    refine ⟨.not { s with z := computeNot c'.st.z } c', p.value, ?_, ⟨⟨⟨hf.1.1, hf.1.2.1⟩, a2.after⟩,
      a2.node.not, a2.is.not, hpv, a2.mark.not⟩⟩
    simp only [Tr.computeRob, a1, bind, Except.bind, hp]
  | and s l r ih1 ih2 =>
    intro S E h0 hSE hc hF hf hk hB hn
    obtain ⟨l', v, a1, a2⟩ := ih1 h0 hSE (covers_mono hc le_rfl (by simp [reach])) hF.1 hf.2.1 hk.1 hB.1 hn.1
    obtain ⟨r', w, b1, b2⟩ := ih2 h0 hSE (covers_mono hc le_rfl (by simp [reach])) hF.2 hf.2.2 hk.2 hB.2 hn.2
    obtain ⟨z, c1, c2, _, c3⟩ := a2.node.and b2.node
    obtain ⟨p, hp, hpv⟩ := c2.front
    have hz : Tr.andRob l'.st.z r'.st.z = .ok z := by
      unfold Tr.andRob
      have e1 : ({ l'.st.z with endTime := max l'.st.z.endTime r'.st.z.endTime } : Signal) = l'.st.z := by
        rw [a2.node.e, b2.node.e, max_self, ← a2.node.e]
      have e2 : ({ r'.st.z with endTime := max l'.st.z.endTime r'.st.z.endTime } : Signal) = r'.st.z := by
        rw [a2.node.e, b2.node.e, max_self, ← b2.node.e]
      simp only [e1, e2, c1]
    refine ⟨.and { s with z := z } l' r', p.value, ?_, ⟨⟨⟨hf.1.1, hf.1.2.1⟩, a2.after, b2.after⟩,
      c2, a2.is.min b2.is c3, hpv, .of_end (by
        have := computeAndM_mark c1
        rwa [a2.node.e, b2.node.e, min_self] at this)⟩⟩
    simp only [Tr.computeRob, a1, b1, bind, Except.bind, hp, hz]
  | or s l r ih1 ih2 =>
    intro S E h0 hSE hc hF hf hk hB hn
    obtain ⟨l', v, a1, a2⟩ := ih1 h0 hSE (covers_mono hc le_rfl (by simp [reach])) hF.1 hf.2.1 hk.1 hB.1 hn.1
    obtain ⟨r', w, b1, b2⟩ := ih2 h0 hSE (covers_mono hc le_rfl (by simp [reach])) hF.2 hf.2.2 hk.2 hB.2 hn.2
    obtain ⟨z, c1, c2, _, c3⟩ := a2.node.or b2.node
    obtain ⟨p, hp, hpv⟩ := c2.front
    have hz : Tr.orRob l'.st.z r'.st.z = .ok z := by
      unfold Tr.orRob
      have e1 : ({ l'.st.z with endTime := max l'.st.z.endTime r'.st.z.endTime } : Signal) = l'.st.z := by
        rw [a2.node.e, b2.node.e, max_self, ← a2.node.e]
      have e2 : ({ r'.st.z with endTime := max l'.st.z.endTime r'.st.z.endTime } : Signal) = r'.st.z := by
        rw [a2.node.e, b2.node.e, max_self, ← b2.node.e]
      simp only [e1, e2, c1]
    refine ⟨.or { s with z := z } l' r', p.value, ?_, ⟨⟨⟨hf.1.1, hf.1.2.1⟩, a2.after, b2.after⟩,
      c2, a2.is.max b2.is c3, hpv, .of_end (by
        have := computeOrM_mark c1
        rwa [a2.node.e, b2.node.e, min_self] at this)⟩⟩
    simp only [Tr.computeRob, a1, b1, bind, Except.bind, hp, hz]
  | implies s l r ih1 ih2 =>
    intro S E h0 hSE hc hF hf hk hB hn
    obtain ⟨l', v, a1, a2⟩ := ih1 h0 hSE (covers_mono hc le_rfl (by simp [reach])) hF.1 hf.2.1 hk.1 hB.1 hn.1
    obtain ⟨r', w, b1, b2⟩ := ih2 h0 hSE (covers_mono hc le_rfl (by simp [reach])) hF.2 hf.2.2 hk.2 hB.2 hn.2
    obtain ⟨z, c1, c2, _, c3⟩ := a2.node.not.or b2.node
    obtain ⟨p, hp, hpv⟩ := c2.front
    refine ⟨.implies { s with z := z } l' r', p.value, ?_, ⟨⟨⟨hf.1.1, hf.1.2.1⟩, a2.after, b2.after⟩,
      c2, a2.is.not.max b2.is c3, hpv, .of_end (by
        have := computeOrM_mark c1
        rwa [a2.node.not.e, b2.node.e, min_self] at this)⟩⟩
    simp only [Tr.computeRob, a1, b1, bind, Except.bind, hp, computeImpliesM, c1]
  | ev s I c ih =>
    intro S E h0 hSE hc hF hf hk hB hn
    obtain ⟨ha, hab, hFc⟩ := hF
    set a := bound env.params I.beginStr I.begin with hadef
    set b := bound env.params I.stopStr I.stop with hbdef
    obtain ⟨c', v, a1, a2⟩ := ih (S := S + a) (E := E + b) (by linarith) (by linarith)
      (covers_mono hc (by linarith) (by simp [reach, ← hbdef]; linarith)) hFc hf.2 hk hB hn.1
    obtain ⟨z, b1, b2, z', b3, b4, b5⟩ := a2.node.evz (old := s.z) a2.is ha hab hSE
      (fun h h' => a2.mark.keeps a2.node a2.is (by linarith) (hn.2 h h'))
    obtain ⟨p, hp, hpv⟩ := b4.front
    obtain ⟨zc, hzc⟩ : ∃ zc, Signal.resize c'.st.z (E - b) (E + b) 0 = .ok zc := by
      rcases le_or_gt (S + a) (E - b) with h | h
      · obtain ⟨zc, q, _⟩ := a2.node.resize 0 h (by linarith) le_rfl
        exact ⟨zc, q⟩
      · obtain ⟨zc, q, _⟩ := resize_ext (s := E - b) (t := E + b) 0 a2.node.wf a2.node.cg
          (by rw [a2.node.b]; exact h) (by rw [a2.node.b]; linarith) (by rw [a2.node.e])
        exact ⟨zc, q⟩
    have het : min z.endTime s.stop = E := by rw [b2, hf.1.2.1]; exact min_eq_right (by linarith)
    have hz : Tr.evRob env.B s a b c'.st.z = .ok (z', zc) := by
      unfold Tr.evRob
      simp only [b1, bind, Except.bind, het]
      rw [a2.node.e, hzc]
      simp only [hf.1.1, max_eq_right hSE, b3]
    refine ⟨.ev { s with z := z' } I (Tr.setZ zc c'), p.value, ?_, ⟨⟨⟨hf.1.1, hf.1.2.1⟩, ?_⟩,
      b4, b5, hpv, fun _ _ h => h.elim⟩⟩
    · simp only [Tr.computeRob, a1, bind, Except.bind, ivA_eq, ivB_eq, ← hadef, ← hbdef, hz, hp]
    · exact a2.after.setZ a2.node hzc
  | alw s I c ih =>
    intro S E h0 hSE hc hF hf hk hB hn
    obtain ⟨ha, hab, hFc⟩ := hF
    set a := bound env.params I.beginStr I.begin with hadef
    set b := bound env.params I.stopStr I.stop with hbdef
    obtain ⟨c', v, a1, a2⟩ := ih (S := S + a) (E := E + b) (by linarith) (by linarith)
      (covers_mono hc (by linarith) (by simp [reach, ← hbdef]; linarith)) hFc hf.2 hk hB hn.1
    obtain ⟨z, b1, b2, z', b3, b4, b5⟩ := a2.node.alwz (old := s.z) a2.is ha hab hSE
      (fun h h' => a2.mark.keeps a2.node a2.is (by linarith) (hn.2 h h'))
    obtain ⟨p, hp, hpv⟩ := b4.front
    have het : min z.endTime s.stop = E := by rw [b2, hf.1.2.1]; exact min_eq_right (by linarith)
    have hz : Tr.alwRob env.B s a b c'.st.z = .ok z' := by
      unfold Tr.alwRob
      simp only [b1, bind, Except.bind, het]
      simp only [hf.1.1, max_eq_right hSE, b3]
    refine ⟨.alw { s with z := z' } I c', p.value, ?_, ⟨⟨⟨hf.1.1, hf.1.2.1⟩, a2.after⟩,
      b4, b5, hpv, fun _ _ h => h.elim⟩⟩
    simp only [Tr.computeRob, a1, bind, Except.bind, ivA_eq, ivB_eq, ← hadef, ← hbdef, hz, hp]
  | _ => intro S E h0 hSE hc hF; exact hF.elim

end

end STLRom
