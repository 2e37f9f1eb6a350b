import Verif.Proofs.Kinds

/-!
# Words that derive from a nonterminal

By induction over the rules of the grammar: words whose kinds derive from `signal_expr`,
`interval` or `stl_formula` are read by `Spec.Grammar`.
-/

namespace STLRom
namespace Parse
open Scan Text Props Spec

/-- What words deriving from a symbol are read as. -/
def Reads (d : Driver) : GSym → List (List Char) → Prop
  | .t k, ws => ∃ w, ws = [w] ∧ Kind d w k
  | .n .constant, ws => ∃ n, NumOk d n ∧ ws = [n.word]
  | .n .constant_signal, ws => ∃ n, NumOk d n ∧ ws = [n.word]
  | .n .signal, ws => ∃ e, ReadsS true e ws ∧ SOk d e
  | .n .signal_atom, ws => ∃ e, ReadsS true e ws ∧ SOk d e
  | .n .signal_unaryexpr, ws => ∃ e, ReadsS false e ws ∧ SOk d e
  | .n .signal_multexpr, ws => ∃ e, ReadsS false e ws ∧ SOk d e
  | .n .signal_addexpr, ws => ∃ e, ReadsS false e ws ∧ SOk d e
  | .n .signal_expr, ws => ∃ e, ReadsS false e ws ∧ SOk d e
  | .n .stl_atom, ws => RF d .prim ws
  | .n .op, ws => ∃ w, ws = [w] ∧ (Key.less.Is w ∨ Key.greater.Is w)
  | .n .interval, ws => ∃ a b, ReadsI a b ws ∧ NumOk d a ∧ NumOk d b
  | .n .stl_formula, ws => Flat d ws
  | .n .assignement, ws => ∃ s w ws', ws = s :: w :: ws' ∧ Kind d s Sym.NEW_ID ∧
      Kind d w Sym.ASSIGN ∧ Flat d ws'
  | _, _ => True

/-- The same for a list of symbols. -/
def ReadsAll (d : Driver) : List GSym → List (List Char) → Prop
  | [], ws => ws = []
  | a :: as, ws => ∃ u v, ws = u ++ v ∧ Reads d a u ∧ ReadsAll d as v

theorem reads_one {d : Driver} {k : ℕ} {v : List Char}
    (hk : k ∉ otherKinds ∧ (kindTable.filter fun p => p.2 == k).map (·.1) = [v])
    {ws} (h : Reads d (.t k) ws) : ws = [v] := by
  obtain ⟨w, rfl, hw⟩ := h
  rw [kind_one hw hk]

theorem one_kind : (∀ p ∈ [(Sym.LPAREN, ['(']), (Sym.RPAREN, [')']), (Sym.LINT, ['[']), (Sym.RINT, [']']),
    (Sym.TIME, ['t']), (Sym.COMMA, [',']), (Sym.PLUS, ['+']), (Sym.MINUS, ['-']), (Sym.MULT, ['*']),
    (Sym.ABS, ['a', 'b', 's'])], p.1 ∉ otherKinds ∧
      (kindTable.filter fun q => q.2 == p.1).map (·.1) = [p.2]) := by
  decide +kernel

theorem reads_rule {d : Driver} (hz : ∀ x i, d.smap.lookup x = some i → i ≠ 0) {x : NT}
    {rhs : List GSym} (hr : (x, rhs) ∈ yppRules) {ws} (h : ReadsAll d rhs ws) : Reads d (.n x) ws := by
  have lp : ∀ {ws}, Reads d (.t Sym.LPAREN) ws → ws = [['(']] :=
    reads_one (one_kind (Sym.LPAREN, ['(']) (by decide))
  have rp : ∀ {ws}, Reads d (.t Sym.RPAREN) ws → ws = [[')']] :=
    reads_one (one_kind (Sym.RPAREN, [')']) (by decide))
  have li : ∀ {ws}, Reads d (.t Sym.LINT) ws → ws = [['[']] :=
    reads_one (one_kind (Sym.LINT, ['[']) (by decide))
  have ri : ∀ {ws}, Reads d (.t Sym.RINT) ws → ws = [[']']] :=
    reads_one (one_kind (Sym.RINT, [']']) (by decide))
  have ti : ∀ {ws}, Reads d (.t Sym.TIME) ws → ws = [['t']] :=
    reads_one (one_kind (Sym.TIME, ['t']) (by decide))
  have co : ∀ {ws}, Reads d (.t Sym.COMMA) ws → ws = [[',']] :=
    reads_one (one_kind (Sym.COMMA, [',']) (by decide))
  have pl : ∀ {ws}, Reads d (.t Sym.PLUS) ws → ws = [['+']] :=
    reads_one (one_kind (Sym.PLUS, ['+']) (by decide))
  have mi : ∀ {ws}, Reads d (.t Sym.MINUS) ws → ws = [['-']] :=
    reads_one (one_kind (Sym.MINUS, ['-']) (by decide))
  have mu : ∀ {ws}, Reads d (.t Sym.MULT) ws → ws = [['*']] :=
    reads_one (one_kind (Sym.MULT, ['*']) (by decide))
  have ab : ∀ {ws}, Reads d (.t Sym.ABS) ws → ws = ["abs".toList] :=
    reads_one (one_kind (Sym.ABS, ['a', 'b', 's']) (by decide))
  have num : ∀ {ws}, Reads d (.t Sym.CONSTANT) ws → ∃ n, NumOk d n ∧ ws = [n.word] := by
    rintro ws ⟨w, rfl, hw⟩
    obtain ⟨l, rfl, hl⟩ := (kind_other hw).2.2.2 rfl
    exact ⟨.lit l, hl, rfl⟩
  have par : ∀ {ws}, Reads d (.t Sym.PARAM_ID) ws → ∃ n, NumOk d n ∧ ws = [n.word] := by
    rintro ws ⟨w, rfl, hw⟩
    obtain ⟨p, rfl, hp⟩ := (kind_other hw).2.1 rfl
    exact ⟨.par p, hp, rfl⟩
  have key : ∀ (k : Key) {ws}, Reads d (.t (keySym k)) ws → ∃ w, ws = [w] ∧ k.Is w := by
    rintro k ws ⟨w, rfl, hw⟩
    exact ⟨w, rfl, kind_key hw⟩
  simp only [yppRules, List.mem_cons, Prod.mk.injEq, List.not_mem_nil, or_false] at hr
  rcases hr with hr | hr | hr | hr | hr | hr | hr | hr | hr | hr | hr | hr | hr | hr | hr | hr | hr | hr |
    hr | hr | hr | hr | hr | hr | hr | hr | hr | hr | hr | hr | hr | hr | hr | hr | hr | hr | hr | hr |
    hr | hr | hr | hr | hr | hr | hr | hr | hr | hr | hr | hr | hr | hr | hr | hr | hr | hr | hr | hr |
    hr | hr | hr | hr | hr | hr
  all_goals obtain ⟨rfl, rfl⟩ := hr
  all_goals try exact trivial
  -- constant
  · obtain ⟨u, v, rfl, h1, rfl⟩ := h
    rw [List.append_nil]
    exact num h1
  · obtain ⟨u, v, rfl, h1, rfl⟩ := h
    rw [List.append_nil]
    exact par h1
  -- constant_signal
  · obtain ⟨u, v, rfl, h1, rfl⟩ := h
    rw [List.append_nil]
    exact num h1
  · obtain ⟨u, v, rfl, h1, rfl⟩ := h
    rw [List.append_nil]
    exact par h1
  -- signal
  · obtain ⟨u, _, rfl, h1, u2, _, rfl, h2, u3, _, rfl, h3, u4, _, rfl, h4, rfl⟩ := h
    obtain ⟨w, rfl, hw⟩ := h1
    obtain ⟨x, rfl, hx, hf, hp, i, hi⟩ := (kind_other hw).2.2.1 rfl
    rw [li h2, ti h3, ri h4]
    obtain ⟨j, rfl⟩ := Nat.exists_eq_succ_of_ne_zero (hz x i hi)
    exact ⟨.sig x, .sig x, hx, hf, hp, j, hi⟩
  -- signal_atom
  · obtain ⟨u, v, rfl, h1, rfl⟩ := h
    rw [List.append_nil]
    exact h1
  · obtain ⟨u, v, rfl, ⟨n, hn, rfl⟩, rfl⟩ := h
    exact ⟨.num n, .num n, hn⟩
  · obtain ⟨u, _, rfl, h1, u2, _, rfl, ⟨e, he, ho⟩, u3, _, rfl, h3, rfl⟩ := h
    rw [lp h1, rp h3]
    exact ⟨e, .paren he, ho⟩
  -- signal_unaryexpr
  · obtain ⟨u, v, rfl, ⟨e, he, ho⟩, rfl⟩ := h
    rw [List.append_nil]
    exact ⟨e, .single he, ho⟩
  · obtain ⟨u, _, rfl, h1, u2, _, rfl, h2, u3, _, rfl, ⟨e, he, ho⟩, u4, _, rfl, h4, rfl⟩ := h
    rw [ab h1, lp h2, rp h4]
    exact ⟨.abs e, .abs he, ho⟩
  -- signal_multexpr
  · obtain ⟨u, v, rfl, h1, rfl⟩ := h
    rw [List.append_nil]
    exact h1
  · obtain ⟨u, _, rfl, ⟨e, he, ho⟩, u2, _, rfl, h2, u3, _, rfl, ⟨e', he', ho'⟩, rfl⟩ := h
    rw [mu h2, List.append_nil]
    exact ⟨.mul e e', .mul he he', ho, ho'⟩
  -- signal_addexpr
  · obtain ⟨u, v, rfl, h1, rfl⟩ := h
    rw [List.append_nil]
    exact h1
  · obtain ⟨u, _, rfl, ⟨e, he, ho⟩, u2, _, rfl, h2, u3, _, rfl, ⟨e', he', ho'⟩, rfl⟩ := h
    rw [pl h2, List.append_nil]
    exact ⟨.add e e', .add he he', ho, ho'⟩
  · obtain ⟨u, _, rfl, ⟨e, he, ho⟩, u2, _, rfl, h2, u3, _, rfl, ⟨e', he', ho'⟩, rfl⟩ := h
    rw [mi h2, List.append_nil]
    exact ⟨.sub e e', .sub he he', ho, ho'⟩
  -- signal_expr
  · obtain ⟨u, v, rfl, h1, rfl⟩ := h
    rw [List.append_nil]
    exact h1
  -- stl_atom
  · obtain ⟨u, _, rfl, ⟨e, he, ho⟩, u2, _, rfl, ⟨w, rfl, hw⟩, u3, _, rfl, ⟨e', he', ho'⟩, rfl⟩ := h
    rw [List.append_nil]
    rcases hw with hw | hw
    · exact ⟨.less e e', .less he hw he', ho, ho'⟩
    · exact ⟨.greater e e', .greater he hw he', ho, ho'⟩
  -- op
  · obtain ⟨u, v, rfl, h1, rfl⟩ := h
    obtain ⟨w, rfl, hw⟩ := key .less h1
    exact ⟨w, rfl, .inl hw⟩
  · obtain ⟨u, v, rfl, h1, rfl⟩ := h
    obtain ⟨w, rfl, hw⟩ := key .greater h1
    exact ⟨w, rfl, .inr hw⟩
  -- interval
  · obtain ⟨u, _, rfl, h1, u2, _, rfl, ⟨a, ha, rfl⟩, u3, _, rfl, h3, u4, _, rfl, ⟨b, hb, rfl⟩, u5, _, rfl, h5,
      rfl⟩ := h
    rw [li h1, co h3, ri h5]
    exact ⟨a, b, .comma, ha, hb⟩
  · obtain ⟨u, _, rfl, h1, u2, _, rfl, ⟨a, ha, rfl⟩, u4, _, rfl, ⟨b, hb, rfl⟩, u5, _, rfl, h5, rfl⟩ := h
    rw [li h1, ri h5]
    exact ⟨a, b, .plain, ha, hb⟩
  -- stl_formula
  · obtain ⟨u, v, rfl, h1, rfl⟩ := h
    rw [List.append_nil]
    exact .prim h1
  · obtain ⟨u, _, rfl, h1, u2, _, rfl, h2, rfl⟩ := h
    obtain ⟨w, rfl, hw⟩ := key .not h1
    rw [List.append_nil]
    exact .pre (.not hw) h2
  · obtain ⟨u, _, rfl, h1, u2, _, rfl, h2, u3, _, rfl, h3, rfl⟩ := h
    obtain ⟨w, rfl, hw⟩ := key .and h2
    rw [List.append_nil]
    exact h1.append (.and hw) h3
  · obtain ⟨u, _, rfl, h1, u2, _, rfl, h2, u3, _, rfl, h3, rfl⟩ := h
    obtain ⟨w, rfl, hw⟩ := key .or h2
    rw [List.append_nil]
    exact h1.append (.or hw) h3
  · obtain ⟨u, _, rfl, h1, u2, _, rfl, h2, u3, _, rfl, h3, rfl⟩ := h
    obtain ⟨w, rfl, hw⟩ := key .implies h2
    rw [List.append_nil]
    exact h1.append (.implies hw) h3
  · obtain ⟨u, _, rfl, h1, u2, _, rfl, ⟨a, b, hi, ha, hb⟩, u3, _, rfl, h3, rfl⟩ := h
    obtain ⟨w, rfl, hw⟩ := key .ev h1
    rw [List.append_nil, ← List.append_assoc]
    exact .pre (.ev hw hi ha hb) h3
  · obtain ⟨u, _, rfl, h1, u2, _, rfl, ⟨a, b, hi, ha, hb⟩, u3, _, rfl, h3, rfl⟩ := h
    obtain ⟨w, rfl, hw⟩ := key .alw h1
    rw [List.append_nil, ← List.append_assoc]
    exact .pre (.alw hw hi ha hb) h3
  · obtain ⟨u, _, rfl, h1, u2, _, rfl, h2, u3, _, rfl, ⟨a, b, hi, ha, hb⟩, u4, _, rfl, h4, rfl⟩ := h
    obtain ⟨w, rfl, hw⟩ := key .untl h2
    rw [List.append_nil]
    have := h1.append (.untl hw hi ha hb) h4
    change Flat d _
    simpa using this
  · obtain ⟨u, _, rfl, h1, u2, _, rfl, h2, u3, _, rfl, h3, rfl⟩ := h
    rw [lp h1, rp h3]
    obtain ⟨f, hf, ho⟩ := h2.all
    exact .prim ⟨f, .paren hf, ho⟩
  · obtain ⟨u, v, rfl, ⟨w, rfl, hw⟩, rfl⟩ := h
    obtain ⟨s, rfl, hs⟩ := (kind_other hw).1 rfl
    exact .prim ⟨.ref s, .ref s, hs⟩
  -- assignement
  · obtain ⟨u, _, rfl, ⟨s, rfl, hs⟩, u2, _, rfl, ⟨w, rfl, hw⟩, u3, _, rfl, h3, rfl⟩ := h
    exact ⟨s, w, u3, by simp, hs, hw, h3⟩

mutual
theorem reads_of {d : Driver} (hz : ∀ x i, d.smap.lookup x = some i → i ≠ 0) :
    ∀ {a : GSym} {ks : List ℕ}, Derives a ks → ∀ {ws}, List.Forall₂ (Kind d) ws ks → Reads d a ws
  | _, _, .tok k, ws, h => by
    rcases h with _ | ⟨h1, h2⟩
    cases h2
    exact ⟨_, rfl, h1⟩
  | _, _, .rule hr hd, ws, h => reads_rule hz hr (readsAll_of hz hd h)

theorem readsAll_of {d : Driver} (hz : ∀ x i, d.smap.lookup x = some i → i ≠ 0) :
    ∀ {as : List GSym} {ks : List ℕ}, DerivesAll as ks → ∀ {ws}, List.Forall₂ (Kind d) ws ks →
      ReadsAll d as ws
  | _, _, .nil, ws, h => by cases h; rfl
  | _, _, .cons (u := u) (v := v) h1 h2, ws, h => by
    exact ⟨_, _, (List.take_append_drop u.length ws).symm,
      reads_of hz h1 (List.forall₂_take_append ws u v h),
      readsAll_of hz h2 (List.forall₂_drop_append ws u v h)⟩
end

/-! ## Which tokens can occur -/

mutual
/-- If the rules of some nonterminals only have tokens in `P` and such nonterminals, then so do the
sequences they derive. -/
theorem derives_within (N : NT → Bool) (P : ℕ → Bool)
    (hc : (yppRules.all fun r => !N r.1 || r.2.all fun
      | .t k => P k
      | .n x => N x) = true) :
    ∀ {a : GSym} {ks : List ℕ}, Derives a ks → (match a with | .t k => P k | .n x => N x) = true →
      ∀ k ∈ ks, P k = true
  | _, _, .tok k, ha => by
    intro k' hk'
    rw [List.mem_singleton] at hk'
    subst hk'
    exact ha
  | _, _, .rule (x := x) (rhs := rhs) hr hd, ha => by
    have := List.all_eq_true.1 hc _ hr
    simp only [Bool.or_eq_true, Bool.not_eq_true'] at this
    rcases this with h | h
    · change N x = true at ha
      rw [ha] at h; simp at h
    · exact derivesAll_within N P hc hd h

theorem derivesAll_within (N : NT → Bool) (P : ℕ → Bool)
    (hc : (yppRules.all fun r => !N r.1 || r.2.all fun
      | .t k => P k
      | .n x => N x) = true) :
    ∀ {as : List GSym} {ks : List ℕ}, DerivesAll as ks → (as.all fun
      | .t k => P k
      | .n x => N x) = true → ∀ k ∈ ks, P k = true
  | _, _, .nil, _ => by simp
  | _, _, .cons h1 h2, ha => by
    rw [List.all_cons, Bool.and_eq_true] at ha
    intro k hk
    rcases List.mem_append.1 hk with hk | hk
    · exact derives_within N P hc h1 ha.1 k hk
    · exact derivesAll_within N P hc h2 ha.2 k hk
end

/-- No rule has the end of the text. -/
theorem derives_noEOF {x : NT} {ks : List ℕ} (h : Derives (.n x) ks) : Sym.EOF ∉ ks := by
  intro hm
  have := derives_within (fun _ => true) (fun k => k != 0) (by decide +kernel) h rfl _ hm
  simp at this

/-- Formulas have no tokens of statements. -/
theorem formula_tokens {ks : List ℕ} (h : Derives (.n .stl_formula) ks) :
    ∀ k ∈ ks, k ∉ [0, 19, 24, 25, 26, 33] := by
  intro k hm
  have := derives_within (fun x => [NT.constant, .constant_signal, .signal, .signal_atom,
    .signal_unaryexpr, .signal_multexpr, .signal_addexpr, .signal_expr, .stl_atom, .op, .interval,
    .stl_formula].contains x) (fun k => ![0, 19, 24, 25, 26, 33].contains k) (by decide +kernel) h
    (by decide) _ hm
  simpa using this

theorem derives_assign {ks : List ℕ} (h : Derives (.n .assignement) ks) :
    ∃ ks', ks = 33 :: 19 :: ks' ∧ Derives (.n .stl_formula) ks' := by
  cases h with
  | rule hr hd =>
    have hr' := hr
    simp only [yppRules, List.mem_cons, Prod.mk.injEq, List.not_mem_nil, or_false, reduceCtorEq, false_and,
      false_or, true_and] at hr'
    subst hr'
    cases hd with
    | cons h1 h2 =>
      cases h1
      cases h2 with
      | cons h1 h2 =>
        cases h1
        cases h2 with
        | cons h1 h2 =>
          cases h2
          exact ⟨_, by simp, h1⟩

theorem derives_start {ks : List ℕ} (h : Derives (.n .start) ks) :
    (∃ x, x ∈ [NT.assignement, .trace_test, .param_assignements, .signal_decl] ∧ Derives (.n x) ks) ∨
    ∃ x u v, x ∈ [NT.assignement, .trace_test, .param_assignements] ∧ Derives (.n .start) u ∧
      Derives (.n x) v ∧ ks = u ++ v := by
  cases h with
  | rule hr hd =>
    have hr' := hr
    simp only [yppRules, List.mem_cons, Prod.mk.injEq, List.not_mem_nil, or_false, reduceCtorEq, false_and,
      false_or, true_and] at hr'
    rcases hr' with rfl | rfl | rfl | rfl | rfl | rfl | rfl
    · cases hd with
      | cons h1 h2 => cases h2; exact .inl ⟨.assignement, by decide, by simpa using h1⟩
    · cases hd with
      | cons h1 h2 => cases h2; exact .inl ⟨.trace_test, by decide, by simpa using h1⟩
    · cases hd with
      | cons h1 h2 => cases h2; exact .inl ⟨.param_assignements, by decide, by simpa using h1⟩
    · cases hd with
      | cons h1 h2 => cases h2; exact .inl ⟨.signal_decl, by decide, by simpa using h1⟩
    · cases hd with
      | cons h1 h2 =>
        cases h2 with
        | cons h2 h3 => cases h3; exact .inr ⟨_, _, _, by decide, h1, h2, by simp⟩
    · cases hd with
      | cons h1 h2 =>
        cases h2 with
        | cons h2 h3 => cases h3; exact .inr ⟨_, _, _, by decide, h1, h2, by simp⟩
    · cases hd with
      | cons h1 h2 =>
        cases h2 with
        | cons h2 h3 => cases h3; exact .inr ⟨_, _, _, by decide, h1, h2, by simp⟩

/-- The first token of a statement. -/
theorem first_tokens {x : NT} {ks : List ℕ} (h : Derives (.n x) ks) :
    (x = .trace_test → ∃ v, ks = 26 :: v) ∧ (x = .trace_env → ∃ v, ks = 26 :: v) ∧
    (x = .param_assignements → ∃ v, ks = 24 :: v) ∧ (x = .signal_decl → ∃ v, ks = 25 :: v) := by
  have env : ∀ {ks}, Derives (.n .trace_env) ks → ∃ v, ks = 26 :: v := by
    intro ks h
    cases h with
    | rule hr hd =>
      have hr' := hr
      simp only [yppRules, List.mem_cons, Prod.mk.injEq, List.not_mem_nil, or_false, reduceCtorEq, false_and,
        false_or, true_and] at hr'
      rcases hr' with rfl | rfl
      · cases hd with
        | cons h1 h2 => cases h1; exact ⟨_, rfl⟩
      · cases hd with
        | cons h1 h2 => cases h1; exact ⟨_, rfl⟩
  refine ⟨?_, ?_, ?_, ?_⟩
  · rintro rfl
    cases h with
    | rule hr hd =>
      have hr' := hr
      simp only [yppRules, List.mem_cons, Prod.mk.injEq, List.not_mem_nil, or_false, reduceCtorEq, false_and,
        false_or, true_and] at hr'
      subst hr'
      cases hd with
      | cons h1 h2 =>
        obtain ⟨v, rfl⟩ := env h1
        exact ⟨_, rfl⟩
  · rintro rfl
    exact env h
  · rintro rfl
    cases h with
    | rule hr hd =>
      have hr' := hr
      simp only [yppRules, List.mem_cons, Prod.mk.injEq, List.not_mem_nil, or_false, reduceCtorEq, false_and,
        false_or, true_and] at hr'
      subst hr'
      cases hd with
      | cons h1 h2 => cases h1; exact ⟨_, rfl⟩
  · rintro rfl
    cases h with
    | rule hr hd =>
      have hr' := hr
      simp only [yppRules, List.mem_cons, Prod.mk.injEq, List.not_mem_nil, or_false, reduceCtorEq, false_and,
        false_or, true_and] at hr'
      subst hr'
      cases hd with
      | cons h1 h2 => cases h1; exact ⟨_, rfl⟩

/-- A text starts with one of four tokens, and with the token of a statement in it. -/
theorem start_first : ∀ (n : ℕ) {ks : List ℕ}, ks.length ≤ n → Derives (.n .start) ks →
    ∃ k v, ks = k :: v ∧ (k ∈ [24, 25, 26] ∨ k = 33 ∧ ∃ v', v = 19 :: v')
  | 0, ks, hn, h => by
    exfalso
    obtain rfl : ks = [] := by simpa using hn
    rcases derives_start h with ⟨x, hx, hd⟩ | ⟨x, u, v, hx, hs, hd, hu⟩
    · simp only [List.mem_cons, List.not_mem_nil, or_false] at hx
      rcases hx with rfl | rfl | rfl | rfl
      · obtain ⟨_, h, _⟩ := derives_assign hd; simp at h
      · obtain ⟨_, h⟩ := (first_tokens hd).1 rfl; simp at h
      · obtain ⟨_, h⟩ := (first_tokens hd).2.2.1 rfl; simp at h
      · obtain ⟨_, h⟩ := (first_tokens hd).2.2.2 rfl; simp at h
    · simp only [List.mem_cons, List.not_mem_nil, or_false] at hx
      obtain ⟨rfl, rfl⟩ : u = [] ∧ v = [] := by simpa using hu.symm
      rcases hx with rfl | rfl | rfl
      · obtain ⟨_, h, _⟩ := derives_assign hd; simp at h
      · obtain ⟨_, h⟩ := (first_tokens hd).1 rfl; simp at h
      · obtain ⟨_, h⟩ := (first_tokens hd).2.2.1 rfl; simp at h
  | n + 1, ks, hn, h => by
    rcases derives_start h with ⟨x, hx, hd⟩ | ⟨x, u, v, hx, hs, hd, rfl⟩
    · simp only [List.mem_cons, List.not_mem_nil, or_false] at hx
      rcases hx with rfl | rfl | rfl | rfl
      · obtain ⟨_, rfl, _⟩ := derives_assign hd; exact ⟨_, _, rfl, .inr ⟨rfl, _, rfl⟩⟩
      · obtain ⟨_, rfl⟩ := (first_tokens hd).1 rfl; exact ⟨_, _, rfl, .inl (by decide)⟩
      · obtain ⟨_, rfl⟩ := (first_tokens hd).2.2.1 rfl; exact ⟨_, _, rfl, .inl (by decide)⟩
      · obtain ⟨_, rfl⟩ := (first_tokens hd).2.2.2 rfl; exact ⟨_, _, rfl, .inl (by decide)⟩
    · have hv : v ≠ [] := by
        rintro rfl
        simp only [List.mem_cons, List.not_mem_nil, or_false] at hx
        rcases hx with rfl | rfl | rfl
        · obtain ⟨_, h, _⟩ := derives_assign hd; simp at h
        · obtain ⟨_, h⟩ := (first_tokens hd).1 rfl; simp at h
        · obtain ⟨_, h⟩ := (first_tokens hd).2.2.1 rfl; simp at h
      have hl : 0 < v.length := List.length_pos_of_ne_nil hv
      rw [List.length_append] at hn
      obtain ⟨k, v', rfl, hk⟩ := start_first n (by omega) hs
      refine ⟨k, v' ++ v, rfl, ?_⟩
      rcases hk with hk | ⟨rfl, v'', rfl⟩
      · exact .inl hk
      · exact .inr ⟨rfl, _, rfl⟩

/-- With one `:=` and none of the other statements' tokens after it, a text is one definition. -/
theorem start_single {k : ℕ} {ks : List ℕ} (h : Derives (.n .start) (33 :: k :: ks))
    (hk : ∀ a ∈ ks, a ∉ [19, 24, 25, 26]) : Derives (.n .assignement) (33 :: k :: ks) := by
  rcases derives_start h with ⟨x, hx, hd⟩ | ⟨x, u, v, hx, hs, hd, hu⟩
  · simp only [List.mem_cons, List.not_mem_nil, or_false] at hx
    rcases hx with rfl | rfl | rfl | rfl
    · exact hd
    · obtain ⟨_, h⟩ := (first_tokens hd).1 rfl; simp at h
    · obtain ⟨_, h⟩ := (first_tokens hd).2.2.1 rfl; simp at h
    · obtain ⟨_, h⟩ := (first_tokens hd).2.2.2 rfl; simp at h
  · exfalso
    obtain ⟨a, v', rfl, ha⟩ := start_first _ le_rfl hs
    simp only [List.cons_append, List.cons.injEq] at hu
    obtain ⟨rfl, hu⟩ := hu
    rcases ha with ha | ⟨-, v'', rfl⟩
    · simp at ha
    · simp only [List.cons_append, List.cons.injEq] at hu
      obtain ⟨rfl, rfl⟩ := hu
      simp only [List.mem_cons, List.not_mem_nil, or_false] at hx
      rcases hx with rfl | rfl | rfl
      · obtain ⟨_, rfl, _⟩ := derives_assign hd
        exact hk 19 (by simp) (by decide)
      · obtain ⟨_, rfl⟩ := (first_tokens hd).1 rfl
        exact hk 26 (by simp) (by decide)
      · obtain ⟨_, rfl⟩ := (first_tokens hd).2.2.1 rfl
        exact hk 24 (by simp) (by decide)

end Parse
end STLRom
