import Verif.Proofs.ReadText

/-!
# The parser on statements
-/

namespace STLRom
namespace Props
open Scan Text Parse Spec

/-! ## Between statements -/

/-- The driver is `d` and the words `ws` are to come; the first of them may have been read
already, when the driver was `d₀`. -/
structure Ready (d₀ d : Driver) (ws : List (List Char)) (p : PState) : Prop where
  drv : p.drv = d
  toks : (p.look = none ∧ d₀ = d ∧ Spelled ws p.input) ∨ (ws = [] ∧ p.look = some (0, .none)) ∨
    ∃ w ws' t, ws = w :: ws' ∧ Word d₀ w t ∧ p.look = some (tokVal t) ∧ Spelled ws' p.input

theorem ready_at {d₀ d : Driver} {w : List Char} {ws : List (List Char)} {p : PState} {t : Tok}
    {ts : List Tok} {stk : List (ℕ × SVal)} (h : Ready d₀ d (w :: ws) p) (hw : Word d₀ w t)
    (hf : List.Forall₂ (Word d) ws ts) (hst : p.stack = stk) :
    At d (Suf (w :: ws)) p (stk, t :: ts) := by
  refine ⟨h.drv, hst, ?_⟩
  rcases h.toks with ⟨h1, rfl, h2⟩ | ⟨h1, _⟩ | ⟨w', ws', t', he, h1, h2, h3⟩
  · exact .inl ⟨h1, lexed_words h2 (.cons hw hf)⟩
  · simp at h1
  · simp only [List.cons.injEq] at he
    obtain ⟨rfl, rfl⟩ := he
    obtain rfl := word_unique hw h1
    exact .inr (.inr ⟨t, ts, rfl, h2, lexed_suf h3 (List.suffix_cons w ws) hf⟩)

theorem ready_end {d₀ d : Driver} {p : PState} {stk : List (ℕ × SVal)} (h : Ready d₀ d [] p)
    (hst : p.stack = stk) : At d (fun _ _ => True) p (stk, []) := by
  refine ⟨h.drv, hst, ?_⟩
  rcases h.toks with ⟨h1, rfl, h2⟩ | ⟨_, h1⟩ | ⟨w', ws', t', he, h1, h2, h3⟩
  · cases h2 with
    | nil hg => exact .inl ⟨h1, .nil trivial (lex_gap_end hg)⟩
  · exact .inr (.inl ⟨rfl, h1⟩)
  · simp at he

theorem at_spelled {d : Driver} {ws₀ ws : List (List Char)} {p : PState} {stk : List (ℕ × SVal)}
    {ts : List Tok} (h : At d (Suf ws₀) p (stk, ts)) (hs : ws <:+ ws₀) (hf : List.Forall₂ (Word d) ws ts)
    (hl : p.look = none) : Spelled ws p.input := by
  rcases h.toks with ⟨_, h2⟩ | ⟨_, h1⟩ | ⟨t, ts', he, h1, h2⟩
  · exact suf_spelled h2.holds hs hf.length_eq
  · rw [hl] at h1; simp at h1
  · rw [hl] at h1; simp at h1

theorem at_ready {d : Driver} {ws₀ ws : List (List Char)} {p : PState} {stk : List (ℕ × SVal)}
    {ts : List Tok} (h : At d (Suf ws₀) p (stk, ts)) (hs : ws <:+ ws₀) (hf : List.Forall₂ (Word d) ws ts) :
    Ready d d ws p := by
  refine ⟨h.drv, ?_⟩
  rcases h.toks with ⟨h1, h2⟩ | ⟨h1, h2⟩ | ⟨t, ts', he, h1, h2⟩
  · exact .inl ⟨h1, rfl, suf_spelled h2.holds hs hf.length_eq⟩
  · simp only at h1
    subst h1
    cases hf
    exact .inr (.inl ⟨rfl, h2⟩)
  · simp only at he
    subst he
    cases hf with
    | @cons w t ws' _ hw hf =>
      refine .inr (.inr ⟨w, ws', t, rfl, hw, h1, ?_⟩)
      exact suf_spelled h2.holds ((List.suffix_cons w ws').trans hs) hf.length_eq

/-- A reduction that looks at the next word and changes the driver. -/
theorem reduce_ready {d d' : Driver} {ws₀ ws : List (List Char)} {p : PState} {s r t : ℕ}
    {v w u : SVal} {st rest : List (ℕ × SVal)} {ts : List Tok}
    (h : At d (Suf ws₀) p ((s, v) :: st, ts)) (hsuf : ws <:+ ws₀) (hf : List.Forall₂ (Word d) ws ts)
    (hs : s ≠ 22) (hn : yyPact.getD s 0 ≠ pactNinf) (hsh : shiftTo s (headSym ts) = none)
    (hr : yyDefact.getD s 0 = r) (h0 : r ≠ 0)
    (h1 : ((s, v) :: st).drop (yyR2.getD r 0) = (t, w) :: rest)
    (h2 : act d r ((((s, v) :: st).take (yyR2.getD r 0)).map (·.2)).reverse = .ok d' u) :
    ∃ q, step p = .next q ∧ q.stack = (goto t (yyR1.getD r 0), u) :: (t, w) :: rest ∧
      Ready d d' ws q := by
  obtain ⟨q, h3, h4, h5, h6⟩ := step_reduce h hs hsh hr h0 h1 h2
  refine ⟨q, h3, h5, h4, ?_⟩
  rcases h6 with ⟨h6, _⟩ | ⟨la, h7, _, ⟨h8, rfl⟩ | ⟨t', ts', rfl, rfl, h8⟩⟩
  · exact absurd h6 hn
  · subst h8
    cases hf
    exact .inr (.inl ⟨rfl, h7⟩)
  · cases hf with
    | @cons w' _ ws' _ hw hf =>
      refine .inr (.inr ⟨w', ws', t', rfl, hw, h7, ?_⟩)
      exact suf_spelled h8.holds ((List.suffix_cons w' ws').trans hsuf) hf.length_eq

/-! ## Words -/

theorem word_colon (d : Driver) : Word d ":".toList ⟨Sym.COLON, none⟩ :=
  word_sym d (n := 31) (by decide +kernel) .colon
theorem word_lbrace (d : Driver) : Word d ['{'] ⟨Sym.LBRACE, none⟩ :=
  word_sym d (s := "{") (n := 31) (by decide +kernel) .lbrace
theorem word_rbrace (d : Driver) : Word d ['}'] ⟨Sym.RBRACE, none⟩ :=
  word_sym d (s := "}") (n := 31) (by decide +kernel) .rbrace

theorem check_quote : ((vec (next 1 (Scan.cls 34))).all fun p => decide (29 ≤ p.1)) = true := by
  decide +kernel

theorem word_quoted (d : Driver) {u : List Char} (h : QuoteOk u) :
    Word d (quoted u) ⟨36, some (String.ofList u)⟩ := by
  have hm : RuleMatches 29 (quoted u) := by
    refine ⟨by decide, _, rfl, .seq (u := ['"']) (.cls (by decide)) (.seq ?_ (.cls (by decide)))⟩
    induction u with
    | nil => exact .starNil
    | cons c u ih =>
      refine .starCons (u := [c]) (.altR (.cls ?_)) (ih fun x hx => h x (by simp [hx]))
      obtain ⟨h1, h2⟩ := h c (by simp)
      have e1 : c.toNat ≠ 34 := fun e => h1 (char_of_toNat e)
      have e2 : c.toNat ≠ 92 := fun e => h2 (char_of_toNat e)
      change Re.inCls true [(92, 92), (34, 34)] (byte c) = true
      simp only [Re.inCls, List.any_cons, List.any_nil, Bool.or_false, bne_iff_ne, ne_eq, Bool.not_eq_true,
        Bool.or_eq_false_iff, Bool.and_eq_false_iff, decide_eq_false_iff_not]
      unfold byte
      omega
  refine word_rule hm ?_ .string
  intro m hm'
  have hr := read_reach (u := ['"']) (w := u ++ ['"']) (n := m) hm'
  obtain ⟨r, hr, _⟩ := (hr.2 m (u ++ ['"'])).2 hm'
  have e : reach ['"'] = next 1 (Scan.cls 34) := rfl
  rw [e] at hr
  simpa using List.all_eq_true.1 check_quote _ hr

theorem word_fresh {d : Driver} {s : String} (h : Fresh d s) : Word d s.toList ⟨33, some s⟩ := by
  have hw := word_ident d (name_ident h.toName)
  have ht : identTok d s = ⟨33, some s⟩ := by
    unfold identTok
    rw [name_reserved h.toName, h.formula, h.param, h.signal, h.test]
    rfl
  rwa [String.ofList_toList, ht] at hw

theorem word_known {d : Driver} {s : String} (hn : Name s) (hf : d.formulas.lookup s = none) {x : ℚ}
    (hp : d.params.lookup s = some x) : Word d s.toList ⟨31, some s⟩ := by
  have hw := word_ident d (name_ident hn)
  have ht : identTok d s = ⟨31, some s⟩ := by
    unfold identTok
    rw [name_reserved hn, hf, hp]
    rfl
  rwa [String.ofList_toList, ht] at hw

theorem word_test {d : Driver} {s : String} (hn : Name s) (hf : d.formulas.lookup s = none)
    (hp : d.params.lookup s = none) (hs : d.smap.lookup s = none) {T : StlTest}
    (ht : d.stlTests.lookup s = some T) : Word d s.toList ⟨35, some s⟩ := by
  have hw := word_ident d (name_ident hn)
  have ht : identTok d s = ⟨35, some s⟩ := by
    unfold identTok
    rw [name_reserved hn, hf, hp, hs, ht]
    rfl
  rwa [String.ofList_toList, ht] at hw

theorem word_param {d : Driver} {p : String} (h : ParamName d p) : ∃ k, (k = 31 ∨ k = 33) ∧
    Word d p.toList ⟨k, some p⟩ := by
  rcases h with h | ⟨h1, h2, x, h3⟩
  · exact ⟨33, .inr rfl, word_fresh h⟩
  · exact ⟨31, .inl rfl, word_known h1 h2 h3⟩

theorem word_bool (d : Driver) (b : Bool) : Word d (boolWord b) ⟨if b then 27 else 28, none⟩ := by
  cases b
  · exact word_reserved d (s := "false") (by decide)
  · exact word_reserved d (s := "true") (by decide)

/-! ## Definitions -/

/-- Shift from the known state. -/
local macro "sh " a:num s:num : tactic =>
  `(tactic| refine .head (.shift (s' := $s) (a := $a) (by decide) rfl (by decide +kernel) (by decide)) ?_)

/-- Reduce whatever follows. -/
local macro "rc " r:num g:term:max h:term:max : tactic =>
  `(tactic| refine .head (.reduceC (r := $r) (g := $g) (by decide) (by decide +kernel) rfl (by decide)
    $h rfl rfl) ?_)

/-- The stack between statements. -/
def Base (b : List (ℕ × SVal)) : Prop := b = [(0, .none)] ∨ ∃ v, b = [(10, v), (0, .none)]

/-- The words to come are words, and the first of them can begin a statement. -/
def Follow (d : Driver) (rest : List (List Char)) : Prop :=
  ∃ ts, List.Forall₂ (Word d) rest ts ∧ headSym ts ∈ [0, 24, 26, 33]

theorem none_48 {a : ℕ} (h : a ∉ [10, 11, 12, 15]) : shiftTo 48 a = none :=
  no_shift (by decide +kernel) (by decide +kernel) h
theorem none_14 {a : ℕ} (h : a ∉ [17]) : shiftTo 14 a = none :=
  no_shift (by decide +kernel) (by decide +kernel) h

theorem run_define {d₀ d : Driver} {p : PState} {b : List (ℕ × SVal)} {s : String} {f : Fml}
    {ws rest : List (List Char)} (hb : Base b)
    (hr : Ready d₀ d (s.toList :: ":=".toList :: (ws ++ rest)) p) (hst : p.stack = b)
    (hs : Fresh d₀ s) (hok : FOk d f) (hf : ReadsF .all f ws) (hrest : Follow d rest) :
    ∃ q v, Rounds p q ∧ q.stack = [(10, v), (0, .none)] ∧
      Ready d (doStmt d (.define s f)) rest q := by
  obtain ⟨tf, hwf, hm⟩ := moves_fml hf hok
  obtain ⟨tr, hwr, hh⟩ := hrest
  have hat := ready_at hr (word_fresh hs) (.cons (word_assign d) (List.rel_append hwf hwr)) hst
  have hban : headSym tr ∉ fmlBan .all ∧ headSym tr ∉ [10, 11, 12, 15] := by
    generalize headSym tr = a at hh
    revert a
    simp only [List.mem_cons, List.not_mem_nil, or_false, forall_eq_or_imp, forall_eq]
    decide
  have hmv : Moves d (b, ⟨33, some s⟩ :: ⟨19, none⟩ :: (tf ++ tr))
      ((48, .tr (f.tree d.smap (formulaOf d))) :: (20, .none) :: (4, .str s) :: b, tr) := by
    rcases hb with rfl | ⟨v, rfl⟩
    all_goals
      sh 33 4
      sh 19 20
      exact hm 20 48 (by decide) _ _ _ hban.1
  obtain ⟨q, hq1, hq2⟩ := moves_rounds hmv hat
  have hsuf : rest <:+ s.toList :: ":=".toList :: (ws ++ rest) :=
    (List.suffix_append ws rest).trans ((List.suffix_cons _ _).trans (List.suffix_cons _ _))
  have hbase : ∃ t w l, b = (t, w) :: l := by
    rcases hb with rfl | ⟨v, rfl⟩
    · exact ⟨_, _, _, rfl⟩
    · exact ⟨_, _, _, rfl⟩
  obtain ⟨t, w, l, hbl⟩ := hbase
  obtain ⟨q', h1, h2, h3⟩ := reduce_ready (d' := doStmt d (.define s f)) (u := .none) (t := t) (w := w)
    (rest := l) hq2 hsuf hwr (by decide) (by decide +kernel) (none_48 hban.2) rfl (by decide)
    (by rw [hbl]; rfl) rfl
  obtain ⟨qd, qs, ql, qi⟩ := q'
  simp only at h2
  subst h2
  rcases hb with rfl | ⟨v, rfl⟩
  · simp only [List.cons.injEq, Prod.mk.injEq] at hbl
    obtain ⟨⟨rfl, rfl⟩, rfl⟩ := hbl
    have e : step ⟨qd, [(goto 0 (yyR1.getD 33 0), .none), (0, .none)], ql, qi⟩ =
        .next ⟨qd, [(10, .none), (0, .none)], ql, qi⟩ := rfl
    exact ⟨_, _, (hq1.tail h1).tail e, rfl, h3.drv, h3.toks⟩
  · simp only [List.cons.injEq, Prod.mk.injEq] at hbl
    obtain ⟨⟨rfl, rfl⟩, rfl⟩ := hbl
    have e : step ⟨qd, [(goto 10 (yyR1.getD 33 0), .none), (10, v), (0, .none)], ql, qi⟩ =
        .next ⟨qd, [(10, v), (0, .none)], ql, qi⟩ := rfl
    exact ⟨_, _, (hq1.tail h1).tail e, rfl, h3.drv, h3.toks⟩

/-! ## Parameters -/

/-- The driver with a parameter set. -/
def setParam (d : Driver) (p : String × Lit) : Driver := { d with params := d.params.set p.1 p.2.value }

theorem assign_one {d : Driver} {p : PState} {c g : ℕ} {v : SVal} {st : List (ℕ × SVal)}
    {a : String × Lit} {rest : List (List Char)} (hc : (c, g) ∈ [(1, 13), (28, 55)])
    (hr : Ready d d (assignWords a ++ rest) p) (hst : p.stack = (c, v) :: st)
    (hp : ParamName d a.1) (hl : a.2.whole ++ a.2.frac ≠ [])
    (hrest : ∃ ts, List.Forall₂ (Word d) rest ts) :
    ∃ q u, Rounds p q ∧ q.stack = (g, u) :: (c, v) :: st ∧
      Ready (setParam d a) (setParam d a) rest q := by
  obtain ⟨k, hk, hw⟩ := word_param hp
  obtain ⟨tr, hwr⟩ := hrest
  obtain ⟨_, hval⟩ := sToD_lit a.2 hl
  have hat := ready_at (w := a.1.toList) (ws := ['='] :: a.2.word :: rest) hr hw
    (.cons (word_equals d) (.cons (word_lit d a.2 hl) hwr)) hst
  have hsuf : rest <:+ a.1.toList :: ['='] :: a.2.word :: rest :=
    (List.suffix_cons _ _).trans ((List.suffix_cons _ _).trans (List.suffix_cons _ _))
  have key : ∀ x ∈ [(1, 13), (28, 55)], x.1 ≠ 22 ∧ shiftTo x.1 31 = some 11 ∧ shiftTo x.1 33 = some 12 ∧
    goto x.1 57 = x.2 := by decide +kernel
  obtain ⟨h22, h31, h33, h57⟩ := key _ hc
  simp only at h22 h31 h33 h57
  rcases hk with rfl | rfl
  · have hmv : Moves d ((c, v) :: st, ⟨31, some a.1⟩ :: ⟨38, none⟩ :: ⟨30, some (String.ofList a.2.word)⟩ :: tr)
        ((26, .none) :: (11, .str a.1) :: (c, v) :: st, ⟨30, some (String.ofList a.2.word)⟩ :: tr) := by
      refine .head (.shift h22 rfl h31 (by decide)) ?_
      sh 38 26
      exact .refl
    obtain ⟨q, hq1, hq2⟩ := moves_rounds hmv hat
    obtain ⟨q', h1, h2, h3⟩ := step_shift (s' := 53) hq2 (by decide) (show shiftTo 26 30 = some 53 by decide +kernel) (by simp)
    have hsp := at_spelled h2 hsuf hwr h3
    have hst' := h2.stack
    have hd' := h2.drv
    obtain ⟨qd, qs, ql, qi⟩ := q'
    simp only at hst' hd' h3 hsp
    subst hst' hd' h3
    have e : step ⟨qd, (53, .str (String.ofList a.2.word)) :: (26, .none) :: (11, .str a.1) :: (c, v) :: st,
        none, qi⟩ = .next ⟨{ qd with params := qd.params.set a.1 (sToDVal (String.ofList a.2.word)) },
          (goto c 57, .none) :: (c, v) :: st, none, qi⟩ := rfl
    refine ⟨_, .none, (hq1.tail h1).tail e, by rw [h57], ?_, .inl ⟨rfl, rfl, hsp⟩⟩
    rw [hval]
    rfl
  · have hmv : Moves d ((c, v) :: st, ⟨33, some a.1⟩ :: ⟨38, none⟩ :: ⟨30, some (String.ofList a.2.word)⟩ :: tr)
        ((27, .none) :: (12, .str a.1) :: (c, v) :: st, ⟨30, some (String.ofList a.2.word)⟩ :: tr) := by
      refine .head (.shift h22 rfl h33 (by decide)) ?_
      sh 38 27
      exact .refl
    obtain ⟨q, hq1, hq2⟩ := moves_rounds hmv hat
    obtain ⟨q', h1, h2, h3⟩ := step_shift (s' := 54) hq2 (by decide) (show shiftTo 27 30 = some 54 by decide +kernel) (by simp)
    have hsp := at_spelled h2 hsuf hwr h3
    have hst' := h2.stack
    have hd' := h2.drv
    obtain ⟨qd, qs, ql, qi⟩ := q'
    simp only at hst' hd' h3 hsp
    subst hst' hd' h3
    have e : step ⟨qd, (54, .str (String.ofList a.2.word)) :: (27, .none) :: (12, .str a.1) :: (c, v) :: st,
        none, qi⟩ = .next ⟨{ qd with params := qd.params.set a.1 (sToDVal (String.ofList a.2.word)) },
          (goto c 57, .none) :: (c, v) :: st, none, qi⟩ := rfl
    refine ⟨_, .none, (hq1.tail h1).tail e, by rw [h57], ?_, .inl ⟨rfl, rfl, hsp⟩⟩
    rw [hval]
    rfl

theorem paramName_set {d : Driver} {a : String × Lit} {p : String} (h : ParamName d p) :
    ParamName (setParam d a) p := by
  unfold ParamName setParam
  by_cases he : p = a.1
  · subst he
    refine .inr ?_
    have hl : (d.params.set a.1 a.2.value).lookup a.1 = some a.2.value := by
      rw [Assoc.lookup_set]; simp
    rcases h with h | ⟨h1, h2, _⟩
    · exact ⟨h.toName, h.formula, _, hl⟩
    · exact ⟨h1, h2, _, hl⟩
  · have hl : (d.params.set a.1 a.2.value).lookup p = d.params.lookup p := by
      rw [Assoc.lookup_set]; simp [he]
    rcases h with h | ⟨h1, h2, x, h3⟩
    · exact .inl ⟨h.toName, h.formula, by rw [hl]; exact h.param, h.signal, h.test⟩
    · exact .inr ⟨h1, h2, x, by rw [hl]; exact h3⟩

theorem assign_words (d : Driver) : ∀ {l : List (String × Lit)}, AssignOk d l →
    ∃ ts, List.Forall₂ (Word d) (assignRest l) ts
  | [], _ => ⟨[], .nil⟩
  | a :: l, h => by
    obtain ⟨ts, hts⟩ := assign_words d (l := l) fun p hp => h p (by simp [hp])
    obtain ⟨h1, h2⟩ := h a (by simp)
    obtain ⟨k, _, hw⟩ := word_param h1
    exact ⟨_, .cons (word_comma d) (.cons hw (.cons (word_equals d) (.cons (word_lit d a.2 h2) hts)))⟩

/-- The rest of a list of parameters, in state 14. -/
theorem assign_rest : ∀ (l : List (String × Lit)) {d : Driver} {p : PState} {v w : SVal}
    {b : List (ℕ × SVal)} {rest : List (List Char)} (_ : Base b) (_ : AssignOk d l)
    (_ : Ready d d (assignRest l ++ rest) p) (_ : p.stack = (14, v) :: (1, w) :: b)
    (_ : Follow (l.foldl setParam d) rest),
    ∃ q u, Rounds p q ∧ q.stack = [(10, u), (0, .none)] ∧
      Ready (l.foldl setParam d) (l.foldl setParam d) rest q
  | [], d, p, v, w, b, rest, hb, hok, hr, hst, hrest => by
    obtain ⟨tr, hwr, hh⟩ := hrest
    simp only [assignRest, List.nil_append] at hr
    simp only [List.foldl_nil] at hwr ⊢
    have h17 : headSym tr ∉ [17] := by
      generalize headSym tr = a at hh
      revert a
      simp only [List.mem_cons, List.not_mem_nil, or_false, forall_eq_or_imp, forall_eq]
      decide
    have hat : At d (Suf rest) p ((14, v) :: (1, w) :: b, tr) := by
      cases hwr with
      | nil =>
        have := ready_end hr hst
        refine ⟨this.drv, this.stack, ?_⟩
        rcases hr.toks with ⟨h1, _, h2⟩ | ⟨_, h1⟩ | ⟨w', ws', t', he, _⟩
        · exact .inl ⟨h1, lexed_words h2 .nil⟩
        · exact .inr (.inl ⟨rfl, h1⟩)
        · simp at he
      | cons hw hf => exact ready_at hr hw hf hst
    have hmv : ∃ u, Moves d ((14, v) :: (1, w) :: b, tr) ([(10, u), (0, .none)], tr) := by
      rcases hb with rfl | ⟨v', rfl⟩
      · refine ⟨w, ?_⟩
        refine .head (.reduce (r := 42) (g := 7) (by decide) rfl (none_14 h17) rfl (by decide)
          (by decide +kernel) rfl rfl) ?_
        rc 61 10 (by decide +kernel)
        exact .refl
      · refine ⟨v', ?_⟩
        refine .head (.reduce (r := 42) (g := 24) (by decide) rfl (none_14 h17) rfl (by decide)
          (by decide +kernel) rfl rfl) ?_
        rc 65 10 (by decide +kernel)
        exact .refl
    obtain ⟨u, hmv⟩ := hmv
    obtain ⟨q, hq1, hq2⟩ := moves_rounds hmv hat
    exact ⟨q, u, hq1, hq2.stack, at_ready hq2 List.suffix_rfl hwr⟩
  | a :: l, d, p, v, w, b, rest, hb, hok, hr, hst, hrest => by
    obtain ⟨h1, h2⟩ := hok a (by simp)
    have hok' : AssignOk d l := fun p hp => hok p (by simp [hp])
    obtain ⟨tl, hwl⟩ := assign_words d hok'
    obtain ⟨k, _, hw⟩ := word_param h1
    have hrest' := hrest
    obtain ⟨tr, hwr, _⟩ := hrest'
    obtain ⟨tr', hwr'⟩ := words_any hwr d
    have hwall := List.rel_append hwl hwr'
    simp only [assignRest, List.cons_append, List.append_assoc] at hr
    have hfa := List.rel_append (show List.Forall₂ (Word d) (assignWords a) _ from
      .cons hw (.cons (word_equals d) (.cons (word_lit d a.2 h2) .nil))) hwall
    have hat := ready_at hr (word_comma d) hfa hst
    obtain ⟨q, e1, e2, e3⟩ := step_shift (s' := 28) hat (by decide) (by decide +kernel) (by decide)
    have hq := at_ready e2 (List.suffix_cons _ _) hfa
    obtain ⟨q1, u1, f1, f2, f3⟩ := assign_one (c := 28) (g := 55) (by decide) hq e2.stack h1 h2 ⟨_, hwall⟩
    obtain ⟨qd, qs, ql, qi⟩ := q1
    simp only at f2
    subst f2
    have e : step ⟨qd, (55, u1) :: (28, (tokVal ⟨Sym.COMMA, none⟩).2) :: (14, v) :: (1, w) :: b, ql, qi⟩ =
        .next ⟨qd, (14, v) :: (1, w) :: b, ql, qi⟩ := rfl
    obtain ⟨q2, u2, g1, g2, g3⟩ := assign_rest l (p := ⟨qd, (14, v) :: (1, w) :: b, ql, qi⟩) hb
      (fun p hp => ⟨paramName_set (hok' p hp).1, (hok' p hp).2⟩) ⟨f3.drv, f3.toks⟩ rfl hrest
    exact ⟨q2, u2, ((Relation.ReflTransGen.single (r := fun p q => step p = .next q) e1).trans (f1.tail e)).trans g1, g2, g3⟩

theorem foldl_setParam (d : Driver) : ∀ (l : List (String × Lit)), l.foldl setParam d =
    { d with params := l.foldl (fun m p => m.set p.1 p.2.value) d.params }
  | [] => rfl
  | a :: l => by rw [List.foldl_cons, foldl_setParam (setParam d a) l]; rfl

theorem run_params {d₀ d : Driver} {p : PState} {b : List (ℕ × SVal)} {a : String × Lit}
    {l : List (String × Lit)} {rest : List (List Char)} (hb : Base b)
    (hr : Ready d₀ d ("param".toList :: (assignWords a ++ assignRest l ++ rest)) p) (hst : p.stack = b)
    (hok : AssignOk d (a :: l)) (hrest : Follow (doStmt d (.params a l)) rest) :
    ∃ q v, Rounds p q ∧ q.stack = [(10, v), (0, .none)] ∧
      Ready (doStmt d (.params a l)) (doStmt d (.params a l)) rest q := by
  have hdo : doStmt d (.params a l) = (a :: l).foldl setParam d := (foldl_setParam d (a :: l)).symm
  rw [hdo] at hrest ⊢
  obtain ⟨h1, h2⟩ := hok a (by simp)
  have hok' : AssignOk d l := fun p hp => hok p (by simp [hp])
  obtain ⟨tl, hwl⟩ := assign_words d hok'
  obtain ⟨k, _, hw⟩ := word_param h1
  have hrest' := hrest
  obtain ⟨tr, hwr, _⟩ := hrest'
  obtain ⟨tr', hwr'⟩ := words_any hwr d
  have hwall := List.rel_append hwl hwr'
  rw [List.append_assoc] at hr
  have hfa := List.rel_append (show List.Forall₂ (Word d) (assignWords a) _ from
    .cons hw (.cons (word_equals d) (.cons (word_lit d a.2 h2) .nil))) hwall
  have hat := ready_at hr (word_reserved d₀ (s := "param") (k := 24) (by decide)) hfa hst
  have hbase : ∃ t w l, b = (t, w) :: l ∧ t ≠ 22 ∧ shiftTo t 24 = some 1 := by
    rcases hb with rfl | ⟨v, rfl⟩
    · exact ⟨_, _, _, rfl, by decide, by decide +kernel⟩
    · exact ⟨_, _, _, rfl, by decide, by decide +kernel⟩
  obtain ⟨t, w, st, hbl, ht, ht1⟩ := hbase
  rw [hbl] at hat
  obtain ⟨q, e1, e2, e3⟩ := step_shift (s' := 1) hat ht ht1 (by decide)
  have hq := at_ready e2 (List.suffix_cons _ _) hfa
  obtain ⟨q1, u1, f1, f2, f3⟩ := assign_one (c := 1) (g := 13) (by decide) hq e2.stack h1 h2 ⟨_, hwall⟩
  obtain ⟨qd, qs, ql, qi⟩ := q1
  simp only at f2
  subst f2
  have e : step ⟨qd, (13, u1) :: (1, (tokVal ⟨24, none⟩).2) :: (t, w) :: st, ql, qi⟩ =
      .next ⟨qd, (14, u1) :: (1, (tokVal ⟨24, none⟩).2) :: (t, w) :: st, ql, qi⟩ := rfl
  obtain ⟨q2, u2, g1, g2, g3⟩ := assign_rest l
    (p := ⟨qd, (14, u1) :: (1, (tokVal ⟨24, none⟩).2) :: (t, w) :: st, ql, qi⟩) (b := (t, w) :: st) (hbl ▸ hb)
    (fun p hp => ⟨paramName_set (hok' p hp).1, (hok' p hp).2⟩) ⟨f3.drv, f3.toks⟩ rfl hrest
  exact ⟨q2, u2, ((Relation.ReflTransGen.single (r := fun p q => step p = .next q) e1).trans (f1.tail e)).trans g1, g2, g3⟩

/-! ## Tests -/

theorem word_same {d d' : Driver} (h1 : d'.formulas = d.formulas) (h2 : d'.params = d.params)
    (h3 : d'.smap = d.smap) (h4 : d'.stlTests = d.stlTests) {w : List Char} {t : Tok} (h : Word d w t) :
    Word d' w t := by
  obtain ⟨n, hm, hmin, ht⟩ := h
  refine ⟨n, hm, hmin, ?_⟩
  cases ht with
  | diamond h => exact .diamond h
  | box h => exact .box h
  | lint => exact .lint
  | rint => exact .rint
  | lparen => exact .lparen
  | rparen => exact .rparen
  | implies h => exact .implies h
  | lt h => exact .lt h
  | gt h => exact .gt h
  | not => exact .not
  | comma => exact .comma
  | and => exact .and
  | or => exact .or
  | assign => exact .assign
  | plus => exact .plus
  | minus => exact .minus
  | mult => exact .mult
  | keyword h => exact .keyword h
  | formula a b => exact .formula a (by rw [h1]; exact b)
  | param a b c => exact .param a (by rw [h1]; exact b) (by rw [h2]; exact c)
  | signal a b c e => exact .signal a (by rw [h1]; exact b) (by rw [h2]; exact c) (by rw [h3]; exact e)
  | test a b c e f =>
    exact .test a (by rw [h1]; exact b) (by rw [h2]; exact c) (by rw [h3]; exact e) (by rw [h4]; exact f)
  | fresh a b c e f =>
    exact .fresh a (by rw [h1]; exact b) (by rw [h2]; exact c) (by rw [h3]; exact e) (by rw [h4]; exact f)
  | constant h => exact .constant h
  | string => exact .string
  | colon => exact .colon
  | equals => exact .equals
  | lbrace => exact .lbrace
  | rbrace => exact .rbrace
  | stop h => exact .stop h
  | other a b c => exact .other a b c

theorem words_same {d d' : Driver} (h1 : d'.formulas = d.formulas) (h2 : d'.params = d.params)
    (h3 : d'.smap = d.smap) (h4 : d'.stlTests = d.stlTests) {ws : List (List Char)} {ts : List Tok}
    (h : List.Forall₂ (Word d) ws ts) : List.Forall₂ (Word d') ws ts :=
  h.imp fun _ _ => word_same h1 h2 h3 h4

theorem ready_same {d d' : Driver} (h1 : d'.formulas = d.formulas) (h2 : d'.params = d.params)
    (h3 : d'.smap = d.smap) (h4 : d'.stlTests = d.stlTests) {ws : List (List Char)} {p : PState}
    (h : Ready d d' ws p) : Ready d' d' ws p := by
  refine ⟨h.drv, ?_⟩
  rcases h.toks with ⟨a, _, b⟩ | h | ⟨w, ws', t, a, b, c⟩
  · exact .inl ⟨a, rfl, b⟩
  · exact .inr (.inl h)
  · exact .inr (.inr ⟨w, ws', t, a, word_same h1 h2 h3 h4 b, c⟩)

/-- One local parameter. -/
theorem local_one {d : Driver} {a : String × Lit} (hp : ParamName d a.1) (hl : a.2.whole ++ a.2.frac ≠ []) :
    ∃ ts, List.Forall₂ (Word d) (assignWords a) ts ∧ ∀ x ∈ [(76, 102), (115, 122)], ∀ v st rest,
      Moves d ((x.1, v) :: st, ts ++ rest) ((x.2, .pmap [(a.1, a.2.value)]) :: (x.1, v) :: st, rest) := by
  obtain ⟨k, hk, hw⟩ := word_param hp
  obtain ⟨_, hval⟩ := sToD_lit a.2 hl
  refine ⟨_, .cons hw (.cons (word_equals d) (.cons (word_lit d a.2 hl) .nil)), ?_⟩
  intro x hx v st rest
  have key : ∀ x ∈ [(76, 102), (115, 122)], x.1 ≠ 22 ∧ shiftTo x.1 31 = some 100 ∧
    shiftTo x.1 33 = some 101 ∧ goto x.1 60 = x.2 := by decide +kernel
  obtain ⟨h22, h31, h33, h60⟩ := key _ hx
  rw [← hval]
  rcases hk with rfl | rfl
  · refine .head (.shift h22 rfl h31 (by decide)) ?_
    sh 38 112
    refine .head (.shift (s' := 120) (a := 30) (by decide) rfl (by decide +kernel) (by decide)) ?_
    refine .head (.reduceC (r := 43) (g := x.2) (by decide) (by decide +kernel) rfl (by decide) h60 rfl rfl) ?_
    exact .refl
  · refine .head (.shift h22 rfl h33 (by decide)) ?_
    sh 38 113
    refine .head (.shift (s' := 121) (a := 30) (by decide) rfl (by decide +kernel) (by decide)) ?_
    refine .head (.reduceC (r := 44) (g := x.2) (by decide) (by decide +kernel) rfl (by decide) h60 rfl rfl) ?_
    exact .refl

theorem local_rest {d : Driver} : ∀ {l : List (String × Lit)}, AssignOk d l →
    ∃ ts, List.Forall₂ (Word d) (assignRest l) ts ∧ ∀ m v st rest,
      Moves d ((103, .pmap m) :: (76, v) :: st, ts ++ rest)
        ((103, .pmap (l.foldl (fun m p => m.set p.1 p.2.value) m)) :: (76, v) :: st, rest)
  | [], _ => ⟨[], .nil, fun _ _ _ _ => .refl⟩
  | a :: l, h => by
    obtain ⟨ts, hts, hm⟩ := local_rest (l := l) fun p hp => h p (by simp [hp])
    obtain ⟨h1, h2⟩ := h a (by simp)
    obtain ⟨ta, hta, hma⟩ := local_one h1 h2
    refine ⟨_, .cons (word_comma d) (List.rel_append hta hts), ?_⟩
    intro m v st rest
    rw [List.cons_append, List.append_assoc]
    refine .head (.shift (s' := 115) (a := 17) (by decide) rfl (by decide +kernel) (by decide)) ?_
    refine Relation.ReflTransGen.trans (hma (115, 122) (by decide) _ _ _) ?_
    refine .head (.reduceC (r := 46) (g := 103) (by decide) (by decide +kernel) rfl (by decide)
      (show goto 76 _ = 103 by decide +kernel) rfl rfl) ?_
    exact hm _ _ _ _

/-- The local parameters of a test. -/
theorem moves_locals {d : Driver} {l : List (String × Lit)} (h : AssignOk d l) :
    ∃ ts, List.Forall₂ (Word d) (localWords l) ts ∧ ∀ x ∈ [(49, 77), (50, 78)], ∀ v st rest,
      headSym rest ≠ 5 →
      Moves d ((x.1, v) :: st, ts ++ rest) ((x.2, .pmap (localMap l)) :: (x.1, v) :: st, rest) := by
  have key : ∀ x ∈ [(49, 77), (50, 78)], x.1 ≠ 22 ∧ shiftTo x.1 5 = some 76 ∧ goto x.1 62 = x.2 ∧
    yyDefact.getD x.1 0 = 47 := by decide +kernel
  cases l with
  | nil =>
    refine ⟨[], .nil, ?_⟩
    intro x hx v st rest hr
    obtain ⟨h22, h5, h62, hdef⟩ := key x hx
    have hno : shiftTo x.1 (headSym rest) = none := by
      have k2 : ∀ x ∈ [(49, 77), (50, 78)], ∀ a, a ∉ [5] → shiftTo x.1 a = none := by
        intro x hx a ha
        simp only [List.mem_cons, List.not_mem_nil, or_false] at hx
        rcases hx with rfl | rfl
        · exact no_shift (by decide +kernel) (by decide +kernel) ha
        · exact no_shift (by decide +kernel) (by decide +kernel) ha
      exact k2 x hx _ (by simpa using hr)
    exact .head (.reduce (r := 47) (g := x.2) h22 rfl hno hdef (by decide) h62 rfl rfl) .refl
  | cons a l =>
    obtain ⟨h1, h2⟩ := h a (by simp)
    obtain ⟨ta, hta, hma⟩ := local_one h1 h2
    obtain ⟨tl, htl, hml⟩ := local_rest (d := d) (l := l) fun p hp => h p (by simp [hp])
    refine ⟨_, .cons (show Word d ['('] ⟨5, none⟩ from word_lparen d) (List.rel_append hta (List.rel_append htl
      (.cons (show Word d [')'] ⟨6, none⟩ from word_rparen d) .nil))), ?_⟩
    intro x hx v st rest _
    obtain ⟨h22, h5, h62, hdef⟩ := key x hx
    simp only [List.cons_append, List.append_assoc]
    refine .head (.shift h22 rfl h5 (by decide)) ?_
    refine Relation.ReflTransGen.trans (hma (76, 102) (by decide) _ _ _) ?_
    refine .head (.reduceC (r := 45) (g := 103) (by decide) (by decide +kernel) rfl (by decide)
      (show goto 76 _ = 103 by decide +kernel) rfl rfl) ?_
    refine Relation.ReflTransGen.trans (hml _ _ _ _) ?_
    sh 6 114
    refine .head (.reduceC (r := 48) (g := x.2) (by decide) (by decide +kernel) rfl (by decide) h62 rfl rfl) ?_
    exact .refl

theorem item_words {d : Driver} {i : Item} {u : List (List Char)} (hok : ItemOk d i) (hr : ReadsItem i u) :
    ∃ t ts, List.Forall₂ (Word d) u (t :: ts) ∧ t.sym ∈ [33, 35] := by
  cases hr with
  | @full id l f pos neg b ws hf =>
    obtain ⟨h1, h2, h3, h4, h5⟩ := hok
    obtain ⟨tl, hl, _⟩ := moves_locals h2
    obtain ⟨tf, hwf, _⟩ := moves_fml hf h3
    exact ⟨_, _, .cons (word_fresh h1) (List.rel_append hl (.cons (word_lbrace d) (List.rel_append hwf
      (.cons (word_comma d) (.cons (word_quoted d h4) (.cons (word_comma d) (.cons (word_quoted d h5)
        (.cons (word_comma d) (.cons (word_bool d b) (.cons (word_rbrace d) .nil)))))))))), by simp⟩
  | @again id l =>
    obtain ⟨h1, h2, h3, h4, ⟨T, h5⟩, h6⟩ := hok
    obtain ⟨tl, hl, _⟩ := moves_locals h6
    exact ⟨_, _, .cons (word_test h1 h2 h3 h4 h5) hl, by simp⟩

theorem items_words : ∀ {is : List Item} {d : Driver} {u : List (List Char)}, ItemsOk d is →
    ReadsItems is u → ∃ ts, List.Forall₂ (Word d) u ts ∧ (is ≠ [] → headSym ts ∈ [33, 35])
  | [], d, u, _, hr => by
    cases hr
    exact ⟨[], .nil, by simp⟩
  | i :: is, d, u, hok, hr => by
    cases hr with
    | cons h1 h2 =>
      obtain ⟨t, ts, hw, ht⟩ := item_words hok.1 h1
      obtain ⟨ts', hw', _⟩ := items_words hok.2 h2
      obtain ⟨ts'', hw''⟩ := words_any hw' d
      exact ⟨_, List.rel_append hw hw'', fun _ => ht⟩

theorem items_head {d : Driver} {is : List Item} {u rest : List (List Char)} {tr : List Tok}
    (hok : ItemsOk d is) (hi : ReadsItems is u) (hr : List.Forall₂ (Word d) rest tr) :
    ∃ ts, List.Forall₂ (Word d) (u ++ ['}'] :: rest) ts ∧ headSym ts ≠ 5 := by
  obtain ⟨ts, hts, hh⟩ := items_words hok hi
  refine ⟨_, List.rel_append hts (.cons (word_rbrace d) hr), ?_⟩
  cases is with
  | nil =>
    cases hi
    cases hts
    show Sym.RBRACE ≠ 5
    decide
  | cons j is =>
    have hh := hh (by simp)
    cases ts with
    | nil => simp [headSym] at hh
    | cons t ts =>
      simp only [headSym, List.mem_cons, List.not_mem_nil, or_false] at hh
      show t.sym ≠ 5
      omega

theorem same_test1 (d : Driver) (id : String) : (d.addStlTest1 id).formulas = d.formulas ∧
    (d.addStlTest1 id).params = d.params ∧ (d.addStlTest1 id).smap = d.smap ∧
    (d.addStlTest1 id).stlTests = d.stlTests := by
  unfold Driver.addStlTest1
  simp only
  cases d.stlTests.lookup id <;> exact ⟨rfl, rfl, rfl, rfl⟩

theorem localMap_ne {a : String × Lit} {l : List (String × Lit)} : localMap (a :: l) ≠ [] := by
  have h : ∀ (l : List (String × Lit)) (m : Assoc ℚ), m ≠ [] →
      l.foldl (fun m p => m.set p.1 p.2.value) m ≠ [] := by
    intro l
    induction l with
    | nil => exact fun m h => h
    | cons b l ih =>
      intro m hm
      refine ih _ ?_
      intro he
      have := Assoc.lookup_set m b.1 b.1 b.2.value
      simp only at he
      rw [he] at this
      simp at this
  exact h l _ (by simp [Assoc.set])

/-- One test. -/
theorem run_item {d : Driver} {p : PState} {c g : ℕ} {v : SVal} {st : List (ℕ × SVal)} {i : Item}
    {u rest : List (List Char)} (hc : (c, g) ∈ [(21, 51), (52, 80)]) (hr : Ready d d (u ++ rest) p)
    (hst : p.stack = (c, v) :: st) (hok : ItemOk d i) (hi : ReadsItem i u)
    (hrest : ∃ ts, List.Forall₂ (Word (doItem d i)) rest ts ∧ headSym ts ≠ 5) :
    ∃ q w, Rounds p q ∧ q.stack = (g, w) :: (c, v) :: st ∧ Ready (doItem d i) (doItem d i) rest q := by
  have key : ∀ x ∈ [(21, 51), (52, 80)], x.1 ≠ 22 ∧ shiftTo x.1 33 = some 49 ∧
    shiftTo x.1 35 = some 50 ∧ goto x.1 66 = x.2 := by decide +kernel
  obtain ⟨h22, h33, h35, h66⟩ := key _ hc
  simp only at h22 h33 h35 h66
  obtain ⟨tr, hwr, hh⟩ := hrest
  cases hi with
  | @full id l f pos neg b ws hf =>
    obtain ⟨h1, h2, h3, h4, h5⟩ := hok
    obtain ⟨tl, hl, hml⟩ := moves_locals h2
    obtain ⟨tf, hwf, hm⟩ := moves_fml hf h3
    obtain ⟨tr', hwr'⟩ := words_any hwr d
    simp only [List.cons_append, List.append_assoc, List.nil_append] at hr
    have hat := ready_at hr (word_fresh h1) (List.rel_append hl (.cons (word_lbrace d) (List.rel_append hwf
      (.cons (word_comma d) (.cons (word_quoted d h4) (.cons (word_comma d) (.cons (word_quoted d h5)
        (.cons (word_comma d) (.cons (word_bool d b) (.cons (word_rbrace d) hwr')))))))))) hst
    have hmv : Moves d ((c, v) :: st, ⟨33, some id⟩ :: (tl ++ ⟨39, none⟩ :: (tf ++ ⟨17, none⟩ ::
        ⟨36, some (String.ofList pos)⟩ :: ⟨17, none⟩ :: ⟨36, some (String.ofList neg)⟩ :: ⟨17, none⟩ ::
        ⟨if b then 27 else 28, none⟩ :: ⟨40, none⟩ :: tr'))) ((132, .bool b) :: (131, .none) :: (130, .str (String.ofList neg)) ::
        (129, .none) :: (128, .str (String.ofList pos)) :: (123, .none) ::
        (116, .tr (f.tree d.smap (formulaOf d))) :: (104, .none) ::
        (77, .pmap (localMap l)) :: (49, .str id) :: (c, v) :: st, ⟨40, none⟩ :: tr') := by
      refine .head (.shift h22 rfl h33 (by decide)) ?_
      refine Relation.ReflTransGen.trans (hml (49, 77) (by decide) _ _ _ (by simp [headSym])) ?_
      sh 39 104
      refine Relation.ReflTransGen.trans (hm 104 116 (by decide) _ _ _ (by simp [headSym, fmlBan])) ?_
      sh 17 123
      sh 36 128
      sh 17 129
      sh 36 130
      sh 17 131
      cases b
      · sh 28 125
        rc 37 132 (by decide +kernel)
        exact .refl
      · sh 27 124
        rc 36 132 (by decide +kernel)
        exact .refl
    obtain ⟨q, hq1, hq2⟩ := moves_rounds hmv hat
    obtain ⟨q', e1, e2, e3⟩ := step_shift (s' := 133) hq2 (by decide) (show shiftTo 132 40 = some 133 by decide +kernel)
      (by simp)
    have hsp := at_spelled e2 (ws := rest) ?_ hwr' e3
    · have hst' := e2.stack
      have hd' := e2.drv
      obtain ⟨qd, qs, ql, qi⟩ := q'
      simp only at hst' hd' e3 hsp
      subst hst' hd' e3
      have e : step ⟨qd, (133, .none) :: (132, .bool b) :: (131, .none) :: (130, .str (String.ofList neg)) ::
        (129, .none) :: (128, .str (String.ofList pos)) :: (123, .none) ::
        (116, .tr (f.tree qd.smap (formulaOf qd))) :: (104, .none) ::
        (77, .pmap (localMap l)) :: (49, .str id) :: (c, v) :: st, none, qi⟩ =
        .next ⟨doItem qd (.full id l f pos neg b), (goto c 66, .none) :: (c, v) :: st, none, qi⟩ := rfl
      exact ⟨_, .none, (hq1.tail e1).tail e, by rw [h66], rfl, .inl ⟨rfl, rfl, hsp⟩⟩
    · refine List.suffix_cons_iff.2 (.inr ?_)
      refine List.IsSuffix.trans ?_ (List.suffix_append _ _)
      refine List.suffix_cons_iff.2 (.inr ?_)
      refine List.IsSuffix.trans ?_ (List.suffix_append _ _)
      iterate 7 refine List.suffix_cons_iff.2 (.inr ?_)
      exact List.suffix_rfl
  | @again id l =>
    obtain ⟨h1, h2, h3, h4, ⟨T, h5⟩, h6⟩ := hok
    obtain ⟨tl, hl, hml⟩ := moves_locals h6
    have hsame : (doItem d (.again id l)).formulas = d.formulas ∧
        (doItem d (.again id l)).params = d.params ∧ (doItem d (.again id l)).smap = d.smap ∧
        (doItem d (.again id l)).stlTests = d.stlTests := by
      simp only [doItem]
      split
      · exact same_test1 d id
      · unfold Driver.addStlTest2
        simp only [h5, and_self]
    obtain ⟨s1, s2, s3, s4⟩ := hsame
    have hwr' := words_same (d' := d) s1.symm s2.symm s3.symm s4.symm hwr
    have hat := ready_at (ws := localWords l ++ rest) hr (word_test h1 h2 h3 h4 h5) (List.rel_append hl hwr') hst
    have hmv : Moves d ((c, v) :: st, ⟨35, some id⟩ :: (tl ++ tr)) ((78, .pmap (localMap l)) :: (50, .str id) ::
        (c, v) :: st, tr) := by
      refine .head (.shift h22 rfl h35 (by decide)) ?_
      exact hml (50, 78) (by decide) _ _ _ hh
    obtain ⟨q, hq1, hq2⟩ := moves_rounds hmv hat
    have hq := at_ready hq2 ((List.suffix_append _ _).trans (List.suffix_cons _ _)) hwr'
    have hst' := hq2.stack
    have hd' := hq2.drv
    obtain ⟨qd, qs, ql, qi⟩ := q
    simp only at hst' hd'
    subst hst' hd'
    have e : step ⟨qd, (78, .pmap (localMap l)) :: (50, .str id) :: (c, v) :: st, ql, qi⟩ =
        .next ⟨if localMap l = [] then qd.addStlTest1 id else qd.addStlTest2 id (localMap l),
          (goto c 66, .none) :: (c, v) :: st, ql, qi⟩ := rfl
    have hdo : (if localMap l = [] then qd.addStlTest1 id else qd.addStlTest2 id (localMap l)) =
        doItem qd (.again id l) := by
      cases l with
      | nil => rfl
      | cons a l => rw [if_neg localMap_ne]; rfl
    rw [hdo] at e
    refine ⟨_, .none, hq1.tail e, by rw [h66], rfl, ?_⟩
    rcases hq.toks with ⟨a, _, b⟩ | h | ⟨w, ws', t, a, b, c⟩
    · exact .inl ⟨a, rfl, b⟩
    · exact .inr (.inl h)
    · exact .inr (.inr ⟨w, ws', t, a, word_same s1 s2 s3 s4 b, c⟩)

/-- The tests after the first, and the closing brace. -/
theorem run_items : ∀ (is : List Item) {d : Driver} {p : PState} {v x : SVal} {st : List (ℕ × SVal)}
    {u rest : List (List Char)} (_ : Ready d d (u ++ ['}'] :: rest) p) (_ : p.stack = (52, v) :: (21, x) :: st)
    (_ : ItemsOk d is) (_ : ReadsItems is u) (_ : ∃ ts, List.Forall₂ (Word (is.foldl doItem d)) rest ts),
    ∃ q w, Rounds p q ∧ q.stack = (79, w) :: (52, v) :: (21, x) :: st ∧
      Ready (is.foldl doItem d) (is.foldl doItem d) rest q
  | [], d, p, v, x, st, u, rest, hr, hst, _, hi, hrest => by
    cases hi
    obtain ⟨tr, hwr⟩ := hrest
    have hat := ready_at hr (word_rbrace d) hwr hst
    obtain ⟨q, e1, e2, e3⟩ := step_shift (s' := 79) hat (by decide) (by decide +kernel) (by decide)
    exact ⟨q, _, .single e1, e2.stack, at_ready e2 (List.suffix_cons _ _) hwr⟩
  | i :: is, d, p, v, x, st, u, rest, hr, hst, hok, hi, hrest => by
    cases hi with
    | @cons _ _ u1 u2 h1 h2 =>
      have hrest' := hrest
      obtain ⟨tr, hwr⟩ := hrest'
      obtain ⟨tr', hwr'⟩ := words_any hwr (doItem d i)
      rw [List.append_assoc] at hr
      obtain ⟨q, w, e1, e2, e3⟩ := run_item (c := 52) (g := 80) (by decide) hr hst hok.1 h1
        (items_head hok.2 h2 hwr')
      obtain ⟨qd, qs, ql, qi⟩ := q
      simp only at e2
      subst e2
      have e : step ⟨qd, (80, w) :: (52, v) :: (21, x) :: st, ql, qi⟩ =
        .next ⟨qd, (52, v) :: (21, x) :: st, ql, qi⟩ := rfl
      obtain ⟨q', w', f1, f2, f3⟩ := run_items is (p := ⟨qd, (52, v) :: (21, x) :: st, ql, qi⟩)
        ⟨e3.drv, e3.toks⟩ rfl hok.2 h2 hrest
      exact ⟨q', w', (e1.tail e).trans f1, f2, f3⟩

/-- The braces of a trace test. -/
theorem run_body {d₀ d : Driver} {p : PState} {b : List (ℕ × SVal)} {x : SVal} {i : Item} {is : List Item}
    {u v rest : List (List Char)} (hb : Base b) (hr : Ready d₀ d (['{'] :: (u ++ (v ++ ['}'] :: rest))) p)
    (hst : p.stack = (6, x) :: b) (hok : ItemsOk d (i :: is)) (hi : ReadsItem i u) (his : ReadsItems is v)
    (hrest : ∃ ts, List.Forall₂ (Word ((i :: is).foldl doItem d)) rest ts) :
    ∃ q v, Rounds p q ∧ q.stack = [(10, v), (0, .none)] ∧
      Ready ((i :: is).foldl doItem d) ((i :: is).foldl doItem d) rest q := by
  have hrest' := hrest
  obtain ⟨tr, hwr⟩ := hrest'
  obtain ⟨tr', hwr'⟩ := words_any hwr (doItem d i)
  have hnext := items_head hok.2 his hwr'
  obtain ⟨tn, hwn, _⟩ := hnext
  obtain ⟨tn', hwn'⟩ := words_any hwn d
  obtain ⟨t, ts, hwi, _⟩ := item_words hok.1 hi
  have hall := List.rel_append hwi hwn'
  have hat := ready_at hr (word_lbrace d₀) hall hst
  obtain ⟨q, e1, e2, e3⟩ := step_shift (s' := 21) hat (by decide) (by decide +kernel) (by decide)
  have hq := at_ready e2 (List.suffix_cons _ _) hall
  obtain ⟨q1, w, f1, f2, f3⟩ := run_item (c := 21) (g := 51) (by decide) hq e2.stack hok.1 hi
    (items_head hok.2 his hwr')
  obtain ⟨qd, qs, ql, qi⟩ := q1
  simp only at f2
  subst f2
  have e : step ⟨qd, (51, w) :: (21, (tokVal ⟨Sym.LBRACE, none⟩).2) :: (6, x) :: b, ql, qi⟩ =
    .next ⟨qd, (52, w) :: (21, (tokVal ⟨Sym.LBRACE, none⟩).2) :: (6, x) :: b, ql, qi⟩ := rfl
  obtain ⟨q2, w2, g1, g2, g3⟩ := run_items is
    (p := ⟨qd, (52, w) :: (21, (tokVal ⟨Sym.LBRACE, none⟩).2) :: (6, x) :: b, ql, qi⟩)
    ⟨f3.drv, f3.toks⟩ rfl hok.2 his hrest
  obtain ⟨pd, ps, pl, pi⟩ := q2
  simp only at g2
  subst g2
  have hall : Rounds p _ :=
    ((Relation.ReflTransGen.single (r := fun p q => step p = .next q) e1).trans (f1.tail e)).trans g1
  rcases hb with rfl | ⟨v', rfl⟩
  · have e' : step ⟨pd, [(79, w2), (52, w), (21, (tokVal ⟨Sym.LBRACE, none⟩).2), (6, x), (0, .none)], pl, pi⟩ =
      .next ⟨pd, [(9, x), (0, .none)], pl, pi⟩ := rfl
    have e'' : step ⟨pd, [(9, x), (0, .none)], pl, pi⟩ = .next ⟨pd, [(10, x), (0, .none)], pl, pi⟩ := rfl
    exact ⟨_, _, (hall.tail e').tail e'', rfl, g3.drv, g3.toks⟩
  · have e' : step ⟨pd, [(79, w2), (52, w), (21, (tokVal ⟨Sym.LBRACE, none⟩).2), (6, x), (10, v'), (0, .none)], pl, pi⟩ =
      .next ⟨pd, [(25, x), (10, v'), (0, .none)], pl, pi⟩ := rfl
    have e'' : step ⟨pd, [(25, x), (10, v'), (0, .none)], pl, pi⟩ = .next ⟨pd, [(10, v'), (0, .none)], pl, pi⟩ := rfl
    exact ⟨_, _, (hall.tail e').tail e'', rfl, g3.drv, g3.toks⟩

theorem run_tests {d₀ d : Driver} {p : PState} {b : List (ℕ × SVal)} {id : String} {env : List Char}
    {o : Option (Lit × Bool)} {i : Item} {is : List Item} {u v rest : List (List Char)} (hb : Base b)
    (hr : Ready d₀ d ("test".toList :: id.toList :: [':'] :: quoted env ::
        (optWords o ++ ['{'] :: (u ++ (v ++ ['}'] :: rest)))) p) (hst : p.stack = b)
    (hok : StmtOk d₀ d (.tests id env o i is)) (hi : ReadsItem i u) (his : ReadsItems is v)
    (hrest : ∃ ts, List.Forall₂ (Word (doStmt d (.tests id env o i is))) rest ts) :
    ∃ q v, Rounds p q ∧ q.stack = [(10, v), (0, .none)] ∧
      Ready (doStmt d (.tests id env o i is)) (doStmt d (.tests id env o i is)) rest q := by
  obtain ⟨h1, h2, h3, h4⟩ := hok
  have hrest' := hrest
  obtain ⟨tr, hwr⟩ := hrest'
  have hbody : ∃ ts, List.Forall₂ (Word d) (['{'] :: (u ++ (v ++ ['}'] :: rest))) (⟨39, none⟩ :: ts) := by
    obtain ⟨tr', hwr'⟩ := words_any hwr d
    obtain ⟨_, _, hwi, _⟩ := item_words h4.1 hi
    obtain ⟨_, hwi'⟩ := words_any hwi d
    obtain ⟨_, hwv, _⟩ := items_words h4.2 his
    obtain ⟨_, hwv'⟩ := words_any hwv d
    exact ⟨_, .cons (word_lbrace d) (List.rel_append hwi' (List.rel_append hwv' (.cons (word_rbrace d) hwr')))⟩
  obtain ⟨tb, hwb⟩ := hbody
  have hbase : ∃ t w l, b = (t, w) :: l ∧ t ≠ 22 ∧ shiftTo t 26 = some 3 ∧ goto t 55 = 6 := by
    rcases hb with rfl | ⟨v, rfl⟩
    · exact ⟨_, _, _, rfl, by decide, by decide +kernel, by decide +kernel⟩
    · exact ⟨_, _, _, rfl, by decide, by decide +kernel, by decide +kernel⟩
  obtain ⟨t, w, st, rfl, ht, h26, h55⟩ := hbase
  have hpre : ∀ ts, Moves d ((t, w) :: st, ⟨26, none⟩ :: ⟨33, some id⟩ :: ⟨37, none⟩ ::
      ⟨36, some (String.ofList env)⟩ :: ts) ((57, .str (String.ofList env)) :: (30, .none) :: (19, .str id) ::
      (3, .none) :: (t, w) :: st, ts) := by
    intro ts
    refine .head (.shift ht rfl h26 (by decide)) ?_
    sh 33 19
    sh 37 30
    sh 36 57
    exact .refl
  have hw26 := word_reserved d₀ (s := "test") (k := 26) (by decide)
  cases o with
  | none =>
    have hat := ready_at hr hw26 (.cons (word_fresh h1) (.cons (word_colon d) (.cons (word_quoted d h2) hwb))) hst
    obtain ⟨q, hq1, hq2⟩ := moves_rounds (hpre _) hat
    obtain ⟨q', e1, e2, e3⟩ := reduce_ready (d' := d.addTraceTest id (String.ofList env) 0 false) (u := .none)
      (t := t) (w := w) (rest := st) (r := 34) hq2 (ws := ['{'] :: (u ++ (v ++ ['}'] :: rest))) (by
        iterate 4 refine List.suffix_cons_iff.2 (.inr ?_)
        exact List.suffix_rfl) hwb (by decide) (by decide +kernel)
      (show shiftTo 57 39 = none by decide +kernel) rfl (by decide) rfl rfl
    rw [show yyR1.getD 34 0 = 55 from rfl, h55] at e2
    obtain ⟨q'', v', f1, f2, f3⟩ := run_body hb e3 e2 h4 hi his hrest
    exact ⟨q'', v', (hq1.tail e1).trans f1, f2, f3⟩
  | some cb =>
    obtain ⟨c, bb⟩ := cb
    have hl := h3 (c, bb) rfl
    simp only at hl
    obtain ⟨_, hval⟩ := sToD_lit c hl
    have hat := ready_at hr hw26 (.cons (word_fresh h1) (.cons (word_colon d) (.cons (word_quoted d h2)
      (.cons (word_comma d) (.cons (word_lit d c hl) (.cons (word_comma d) (.cons (word_bool d bb) hwb))))))) hst
    have hmv : Moves d ((57, .str (String.ofList env)) :: (30, .none) :: (19, .str id) ::
      (3, .none) :: (t, w) :: st, ⟨17, none⟩ :: ⟨30, some (String.ofList c.word)⟩ :: ⟨17, none⟩ ::
        ⟨if bb then 27 else 28, none⟩ :: ⟨39, none⟩ :: tb) ((117, .none) :: (105, .str (String.ofList c.word)) ::
        (81, .none) :: (57, .str (String.ofList env)) :: (30, .none) :: (19, .str id) ::
      (3, .none) :: (t, w) :: st, ⟨if bb then 27 else 28, none⟩ :: ⟨39, none⟩ :: tb) := by
      sh 17 81
      refine .head (.shift (s' := 105) (a := 30) (by decide) rfl (by decide +kernel) (by decide)) ?_
      sh 17 117
      exact .refl
    obtain ⟨q, hq1, hq2⟩ := moves_rounds ((hpre _).trans hmv) hat
    have hsuf : (['{'] :: (u ++ (v ++ ['}'] :: rest))) <:+ ("test".toList :: id.toList :: [':'] :: quoted env ::
        (optWords (some (c, bb)) ++ ['{'] :: (u ++ (v ++ ['}'] :: rest)))) := by
      iterate 4 refine List.suffix_cons_iff.2 (.inr ?_)
      exact List.suffix_append _ _
    have hfin : ∃ q', Rounds q q' ∧ q'.stack = (6, .none) :: (t, w) :: st ∧
        Ready (d.addTraceTest id (String.ofList env) c.value bb)
          (d.addTraceTest id (String.ofList env) c.value bb) (['{'] :: (u ++ (v ++ ['}'] :: rest))) q' := by
      rw [← hval, ← h55]
      cases bb
      · obtain ⟨q', e1, e2, e3⟩ := step_shift (s' := 125) hq2 (by decide)
          (show shiftTo 117 28 = some 125 by decide +kernel) (by simp)
        have hsp := at_spelled e2 hsuf hwb e3
        have hst' := e2.stack
        have hd' := e2.drv
        obtain ⟨qd, qs, ql, qi⟩ := q'
        simp only at hst' hd' e3 hsp
        subst hst' hd' e3
        have a1 : step ⟨qd, (125, .none) :: (117, .none) :: (105, .str (String.ofList c.word)) ::
          (81, .none) :: (57, .str (String.ofList env)) :: (30, .none) :: (19, .str id) ::
          (3, .none) :: (t, w) :: st, none, qi⟩ = .next ⟨qd, (126, .bool false) :: (117, .none) ::
          (105, .str (String.ofList c.word)) ::
          (81, .none) :: (57, .str (String.ofList env)) :: (30, .none) :: (19, .str id) ::
          (3, .none) :: (t, w) :: st, none, qi⟩ := rfl
        have a2 : step ⟨qd, (126, .bool false) :: (117, .none) :: (105, .str (String.ofList c.word)) ::
          (81, .none) :: (57, .str (String.ofList env)) :: (30, .none) :: (19, .str id) ::
          (3, .none) :: (t, w) :: st, none, qi⟩ = .next ⟨qd.addTraceTest id (String.ofList env)
            (sToDVal (String.ofList c.word)) false, (goto t 55, .none) :: (t, w) :: st, none, qi⟩ := rfl
        exact ⟨_, ((Relation.ReflTransGen.single (r := fun p q => step p = .next q) e1).tail a1).tail a2, rfl, rfl, .inl ⟨rfl, rfl, hsp⟩⟩
      · obtain ⟨q', e1, e2, e3⟩ := step_shift (s' := 124) hq2 (by decide)
          (show shiftTo 117 27 = some 124 by decide +kernel) (by simp)
        have hsp := at_spelled e2 hsuf hwb e3
        have hst' := e2.stack
        have hd' := e2.drv
        obtain ⟨qd, qs, ql, qi⟩ := q'
        simp only at hst' hd' e3 hsp
        subst hst' hd' e3
        have a1 : step ⟨qd, (124, .none) :: (117, .none) :: (105, .str (String.ofList c.word)) ::
          (81, .none) :: (57, .str (String.ofList env)) :: (30, .none) :: (19, .str id) ::
          (3, .none) :: (t, w) :: st, none, qi⟩ = .next ⟨qd, (126, .bool true) :: (117, .none) ::
          (105, .str (String.ofList c.word)) ::
          (81, .none) :: (57, .str (String.ofList env)) :: (30, .none) :: (19, .str id) ::
          (3, .none) :: (t, w) :: st, none, qi⟩ := rfl
        have a2 : step ⟨qd, (126, .bool true) :: (117, .none) :: (105, .str (String.ofList c.word)) ::
          (81, .none) :: (57, .str (String.ofList env)) :: (30, .none) :: (19, .str id) ::
          (3, .none) :: (t, w) :: st, none, qi⟩ = .next ⟨qd.addTraceTest id (String.ofList env)
            (sToDVal (String.ofList c.word)) true, (goto t 55, .none) :: (t, w) :: st, none, qi⟩ := rfl
        exact ⟨_, ((Relation.ReflTransGen.single (r := fun p q => step p = .next q) e1).tail a1).tail a2, rfl, rfl, .inl ⟨rfl, rfl, hsp⟩⟩
    obtain ⟨q', e1, e2, e3⟩ := hfin
    obtain ⟨q'', v', f1, f2, f3⟩ := run_body hb e3 e2 h4 hi his hrest
    exact ⟨q'', v', (hq1.trans e1).trans f1, f2, f3⟩

/-! ## Programs -/

/-- The words of a statement are words of the driver, and the first can begin a statement. -/
theorem stmt_words {d₀ d : Driver} {s : Stmt} {u : List (List Char)} (hok : StmtOk d₀ d s) (hr : ReadsStmt s u) :
    ∃ t ts, List.Forall₂ (Word d₀) u (t :: ts) ∧ t.sym ∈ [24, 26, 33] := by
  cases hr with
  | define hf =>
    obtain ⟨tf, hwf, _⟩ := moves_fml hf hok.2
    obtain ⟨tf', hwf'⟩ := words_any hwf d₀
    exact ⟨_, _, .cons (word_fresh hok.1) (.cons (word_assign d₀) hwf'), by simp⟩
  | @params p ps =>
    obtain ⟨tl, hwl⟩ := assign_words d (l := ps) fun p hp => hok p (by simp [hp])
    obtain ⟨h1, h2⟩ := hok p (by simp)
    obtain ⟨k, _, hw⟩ := word_param h1
    obtain ⟨tl', hwl'⟩ := words_any (List.rel_append (show List.Forall₂ (Word d) (assignWords p) _ from
      .cons hw (.cons (word_equals d) (.cons (word_lit d p.2 h2) .nil))) hwl) d₀
    exact ⟨_, _, .cons (word_reserved d₀ (s := "param") (k := 24) (by decide)) hwl', by simp⟩
  | @tests id env o i is u v hi his =>
    obtain ⟨h1, h2, h3, h4⟩ := hok
    obtain ⟨_, _, hwi, _⟩ := item_words h4.1 hi
    obtain ⟨_, hwi'⟩ := words_any hwi d
    obtain ⟨_, hwv, _⟩ := items_words h4.2 his
    obtain ⟨_, hwv'⟩ := words_any hwv d
    have hopt : ∃ ts, List.Forall₂ (Word d) (optWords o) ts := by
      cases o with
      | none => exact ⟨[], .nil⟩
      | some cb =>
        exact ⟨_, .cons (word_comma d) (.cons (word_lit d cb.1 (h3 cb rfl)) (.cons (word_comma d)
          (.cons (word_bool d cb.2) .nil)))⟩
    obtain ⟨tp, hwo⟩ := hopt
    obtain ⟨tt, hwt⟩ := words_any (List.Forall₂.cons (word_fresh h1) (.cons (word_colon d)
      (.cons (word_quoted d h2) (List.rel_append hwo (.cons (word_lbrace d) (List.rel_append hwi'
        (List.rel_append hwv' (.cons (word_rbrace d) .nil)))))))) d₀
    exact ⟨_, _, .cons (word_reserved d₀ (s := "test") (k := 26) (by decide)) hwt, by simp⟩

theorem prog_follow : ∀ {ss : List Stmt} {d₀ d : Driver} {u : List (List Char)}, ProgOk d₀ d ss →
    ReadsProg ss u → Follow d₀ u
  | [], d₀, d, u, _, hr => by
    cases hr
    exact ⟨[], .nil, by simp [headSym]⟩
  | s :: ss, d₀, d, u, hok, hr => by
    cases hr with
    | cons h1 h2 =>
      obtain ⟨t, ts, hw, ht⟩ := stmt_words hok.1 h1
      obtain ⟨ts', hw', _⟩ := prog_follow hok.2 h2
      obtain ⟨ts'', hw''⟩ := words_any hw' d₀
      refine ⟨_, List.rel_append hw hw'', ?_⟩
      show t.sym ∈ [0, 24, 26, 33]
      simp only [List.mem_cons, List.not_mem_nil, or_false] at ht ⊢
      omega

/-- From the stack between statements the parser reads statements, does what they say, and
accepts. -/
theorem run_prog : ∀ {ss : List Stmt} {d₀ d : Driver} {p : PState} {b : List (ℕ × SVal)}
    {u : List (List Char)}, Base b → p.stack = b → (ss = [] → b ≠ [(0, .none)]) → Ready d₀ d u p → ProgOk d₀ d ss →
    ReadsProg ss u → ∃ n, run n p = .accept (ss.foldl doStmt d)
  | [], d₀, d, p, b, u, hb, hst, hne, hr, _, hp => by
    cases hp
    rcases hb with rfl | ⟨v, rfl⟩
    · exact absurd rfl (hne rfl)
    · exact step_end (ready_end hr hst)
  | s :: ss, d₀, d, p, b, u, hb, hst, _, hr, hok, hp => by
    cases hp with
    | @cons _ _ u v h1 h2 =>
      have hfol := prog_follow hok.2 h2
      have hone : ∃ q v', Rounds p q ∧ q.stack = [(10, v'), (0, .none)] ∧
          Ready (lookDrv d s) (doStmt d s) v q := by
        cases h1 with
        | define hf => exact run_define hb hr hst hok.1.1 hok.1.2 hf hfol
        | params => exact run_params hb hr hst hok.1 hfol
        | tests hi his =>
          obtain ⟨ts, hw, _⟩ := hfol
          refine run_tests hb ?_ hst hok.1 hi his ⟨ts, hw⟩
          simpa only [List.cons_append, List.append_assoc, List.nil_append] using hr
      obtain ⟨q, v', e1, e2, e3⟩ := hone
      obtain ⟨n, hn⟩ := run_prog (p := q) (.inr ⟨v', rfl⟩) e2 (by simp) e3 hok.2 h2
      exact rounds_run e1 hn

end Props
end STLRom
