import Verif.Proofs.ScanGap
import Verif.Model.Tools
import Mathlib.Tactic.IntervalCases

/-!
# Property C42: the scanner splits text as documented
-/

namespace STLRom
namespace Props
open Spec Scan

/-! ## Maximal munch -/

/-- On every non-empty text the generated automaton takes off the longest prefix matched by
a rule of `stl_scanner.lpp`, using the first rule that matches it; and there is exactly one
such prefix and rule. -/
theorem C42_munch (text : List Char) (h : text ≠ []) :
    ∃ n u v, munch text = some (n, u, v) ∧ Munch text n u v ∧
      ∀ n' u' v', Munch text n' u' v' → n' = n ∧ u' = u ∧ v' = v := by
  obtain ⟨n, u, v, h1, h2⟩ := munch_spec h
  refine ⟨n, u, v, h1, h2, fun n' u' v' h' => ?_⟩
  obtain ⟨rfl, rfl, rfl⟩ := munch_unique h' h2
  exact ⟨rfl, rfl, rfl⟩

example : munch "<>_[0,1] x".toList = some (4, "<>_".toList, "[0,1] x".toList) := by
  decide +kernel
example : munch "-1.5e".toList = some (26, "-1.5".toList, "e".toList) := by decide +kernel

/-! ## The token stream, without the model's bookkeeping -/

/-- The meaning of the rules as tokens. -/
inductive TokenOf (d : Driver) : ℕ → List Char → Tok → Prop where
  | diamond {n u} : n = 3 ∨ n = 4 → TokenOf d n u ⟨Sym.DIAMOND, none⟩
  | box {n u} : n = 5 ∨ n = 6 → TokenOf d n u ⟨Sym.BOX, none⟩
  | lint {u} : TokenOf d 7 u ⟨Sym.LINT, none⟩
  | rint {u} : TokenOf d 8 u ⟨Sym.RINT, none⟩
  | lparen {u} : TokenOf d 9 u ⟨Sym.LPAREN, none⟩
  | rparen {u} : TokenOf d 10 u ⟨Sym.RPAREN, none⟩
  | implies {n u} : n = 11 ∨ n = 12 → TokenOf d n u ⟨Sym.IMPLIES, none⟩
  | lt {n u} : n = 13 ∨ n = 15 → TokenOf d n u ⟨Sym.LT, none⟩
  | gt {n u} : n = 14 ∨ n = 16 → TokenOf d n u ⟨Sym.GT, none⟩
  | not {u} : TokenOf d 17 u ⟨Sym.NOT, none⟩
  | comma {u} : TokenOf d 18 u ⟨Sym.COMMA, none⟩
  | and {u} : TokenOf d 19 u ⟨Sym.AND, none⟩
  | or {u} : TokenOf d 20 u ⟨Sym.OR, none⟩
  | assign {u} : TokenOf d 21 u ⟨Sym.ASSIGN, none⟩
  | plus {u} : TokenOf d 22 u ⟨Sym.PLUS, none⟩
  | minus {u} : TokenOf d 23 u ⟨Sym.MINUS, none⟩
  | mult {u} : TokenOf d 24 u ⟨Sym.MULT, none⟩
  | keyword {u k} : (String.ofList u, k) ∈ reserved → TokenOf d 25 u ⟨k, none⟩
  | formula {u T} : (∀ k, (String.ofList u, k) ∉ reserved) →
      d.formulas.lookup (String.ofList u) = some T →
      TokenOf d 25 u ⟨Sym.PHI_ID, some (String.ofList u)⟩
  | param {u x} : (∀ k, (String.ofList u, k) ∉ reserved) →
      d.formulas.lookup (String.ofList u) = none → d.params.lookup (String.ofList u) = some x →
      TokenOf d 25 u ⟨Sym.PARAM_ID, some (String.ofList u)⟩
  | signal {u i} : (∀ k, (String.ofList u, k) ∉ reserved) →
      d.formulas.lookup (String.ofList u) = none → d.params.lookup (String.ofList u) = none →
      d.smap.lookup (String.ofList u) = some i →
      TokenOf d 25 u ⟨Sym.SIGNAL_ID, some (String.ofList u)⟩
  | test {u T} : (∀ k, (String.ofList u, k) ∉ reserved) →
      d.formulas.lookup (String.ofList u) = none → d.params.lookup (String.ofList u) = none →
      d.smap.lookup (String.ofList u) = none → d.stlTests.lookup (String.ofList u) = some T →
      TokenOf d 25 u ⟨Sym.STL_TEST_ID, some (String.ofList u)⟩
  | fresh {u} : (∀ k, (String.ofList u, k) ∉ reserved) →
      d.formulas.lookup (String.ofList u) = none → d.params.lookup (String.ofList u) = none →
      d.smap.lookup (String.ofList u) = none → d.stlTests.lookup (String.ofList u) = none →
      TokenOf d 25 u ⟨Sym.NEW_ID, some (String.ofList u)⟩
  | constant {n u} : n = 26 ∨ n = 27 ∨ n = 28 →
      TokenOf d n u ⟨Sym.CONSTANT, some (String.ofList u)⟩
  | string {u} : TokenOf d 29 ('"' :: u ++ ['"']) ⟨Sym.STRING, some (String.ofList u)⟩
  | colon : TokenOf d 31 [':'] ⟨Sym.COLON, none⟩
  | equals : TokenOf d 31 ['='] ⟨Sym.EQUALS, none⟩
  | lbrace : TokenOf d 31 ['{'] ⟨Sym.LBRACE, none⟩
  | rbrace : TokenOf d 31 ['}'] ⟨Sym.RBRACE, none⟩
  | stop {c : Char} : c.toNat = 0 ∨ 128 ≤ c.toNat → TokenOf d 31 [c] ⟨Sym.EOF, none⟩
  | other {c : Char} : 0 < c.toNat → c.toNat < 128 → c ∉ [':', '=', '{', '}'] →
      TokenOf d 31 [c] ⟨Sym.undef, none⟩

/-- The next token of a text: skip blanks (rule 1), newlines (2) and comments (30), then the
token of the first other match; `END` when the text is used up. -/
inductive Lexes (d : Driver) : List Char → Tok → List Char → Prop where
  | done : Lexes d [] ⟨Sym.EOF, none⟩ []
  | skip {text n u v t rest} : Munch text n u v → n = 1 ∨ n = 2 ∨ n = 30 → Lexes d v t rest →
      Lexes d text t rest
  | token {text n u v t} : Munch text n u v → TokenOf d n u t → Lexes d text t v

theorem reserved_nodup : (reserved.map (·.1)).Nodup := by decide +kernel

theorem reserved_lookup {s : String} {k : ℕ} :
    reserved.lookup s = some k ↔ (s, k) ∈ reserved := by
  have key : ∀ l : Assoc ℕ, (l.map (·.1)).Nodup → (l.lookup s = some k ↔ (s, k) ∈ l) := by
    intro l
    induction l with
    | nil => simp
    | cons p l ih =>
      obtain ⟨a, b⟩ := p
      intro h
      simp only [List.map_cons, List.nodup_cons] at h
      rw [List.lookup_cons]
      by_cases ha : s = a
      · subst ha
        simp only [beq_self_eq_true, List.mem_cons, Prod.mk.injEq, true_and, Option.some.injEq]
        constructor
        · intro h'; exact .inl h'.symm
        · rintro (h' | h')
          · exact h'.symm
          · exact absurd (List.mem_map.2 ⟨_, h', rfl⟩) h.1
      · simp only [beq_eq_false_iff_ne.2 ha, List.mem_cons, Prod.mk.injEq, ha, false_and,
          false_or]
        exact ih h.2
  exact key _ reserved_nodup

theorem reserved_none {s : String} (h : ∀ k, (s, k) ∉ reserved) : reserved.lookup s = none := by
  cases hr : reserved.lookup s with
  | none => rfl
  | some k => exact absurd (reserved_lookup.1 hr) (h k)

theorem tokenOf_ident (d : Driver) (u : List Char) :
    TokenOf d 25 u (identTok d (String.ofList u)) := by
  unfold identTok
  cases hr : reserved.lookup (String.ofList u) with
  | some k => exact .keyword (reserved_lookup.1 hr)
  | none =>
    have hn : ∀ k, (String.ofList u, k) ∉ reserved := by
      intro k hk
      rw [reserved_lookup.2 hk] at hr
      simp at hr
    simp only
    cases hf : d.formulas.lookup (String.ofList u) with
    | some T => simp only [Option.isSome_some, if_true]; exact .formula hn hf
    | none =>
      simp only [Option.isSome_none, Bool.false_eq_true, if_false]
      cases hp : d.params.lookup (String.ofList u) with
      | some T => simp only [Option.isSome_some, if_true]; exact .param hn hf hp
      | none =>
        simp only [Option.isSome_none, Bool.false_eq_true, if_false]
        cases hs : d.smap.lookup (String.ofList u) with
        | some T => simp only [Option.isSome_some, if_true]; exact .signal hn hf hp hs
        | none =>
          simp only [Option.isSome_none, Bool.false_eq_true, if_false]
          cases ht : d.stlTests.lookup (String.ofList u) with
          | some T => simp only [Option.isSome_some, if_true]; exact .test hn hf hp hs ht
          | none =>
            simp only [Option.isSome_none, Bool.false_eq_true, if_false]
            exact .fresh hn hf hp hs ht

/-- Words of the last two rules. -/
theorem rule29_word {u : List Char} (h : RuleMatches 29 u) : ∃ w, u = '"' :: w ++ ['"'] := by
  obtain ⟨_, r, hr, hm⟩ := h
  simp only [lexRules] at hr
  injection hr with hr
  subst hr
  obtain ⟨a, b, rfl, ha, hb⟩ := Re.matches_seq.1 hm
  obtain ⟨b1, b2, rfl, hb1, hb2⟩ := Re.matches_seq.1 hb
  have hq : ∀ w, (Re.chr '"').Matches w → w = ['"'] := by
    intro w hw
    obtain ⟨c, rfl, hc⟩ := Re.matches_cls.1 hw
    have : c.toNat = 34 := by
      have h : 34 ≤ c.toNat ∧ c.toNat ≤ 34 := by simpa [Re.inCls] using hc
      omega
    congr 1
    exact Char.ext (UInt32.toNat_inj.1 this)
  exact ⟨b1, by rw [hq _ ha, hq _ hb2]; simp⟩

theorem tokenOf_byte (d : Driver) (c : Char) : TokenOf d 31 [c] ⟨byteTok (byte c), none⟩ := by
  unfold byteTok byte
  split_ifs with h1 h2 h3 h4 h5
  · exact .stop (by omega)
  · obtain rfl : c = ':' := char_of_toNat (by change c.toNat = 58; omega)
    exact .colon
  · obtain rfl : c = '=' := char_of_toNat (by change c.toNat = 61; omega)
    exact .equals
  · obtain rfl : c = '{' := char_of_toNat (by change c.toNat = 123; omega)
    exact .lbrace
  · obtain rfl : c = '}' := char_of_toNat (by change c.toNat = 125; omega)
    exact .rbrace
  · refine .other (by omega) (by omega) ?_
    simp only [List.mem_cons, List.not_mem_nil, or_false, not_or]
    refine ⟨?_, ?_, ?_, ?_⟩ <;> rintro rfl
    · exact h2 rfl
    · exact h3 rfl
    · exact h4 rfl
    · exact h5 rfl

theorem rule_le {n : ℕ} {u : List Char} (h : RuleMatches n u) : 0 < n ∧ n ≤ 31 := by
  obtain ⟨h0, r, hr, _⟩ := h
  obtain ⟨hl, _⟩ := List.getElem?_eq_some_iff.1 hr
  have : lexRules.length = 31 := rfl
  exact ⟨h0, by omega⟩

/-- The action of a matched rule. -/
theorem action_spec (d : Driver) {n : ℕ} {u : List Char} (h : RuleMatches n u) :
    ((n = 1 ∨ n = 2 ∨ n = 30) ∧ action d n u = none) ∨
    (∃ t, action d n u = some t ∧ TokenOf d n u t) := by
  obtain ⟨h0, h1⟩ := rule_le h
  by_cases hs : n = 1 ∨ n = 2 ∨ n = 30
  · left; refine ⟨hs, ?_⟩
    rcases hs with rfl | rfl | rfl <;> rfl
  right
  by_cases h29 : n = 29
  · subst h29
    obtain ⟨w, rfl⟩ := rule29_word h
    refine ⟨_, rfl, ?_⟩
    have : ((('"' :: w ++ ['"'] : List Char).drop 1).dropLast) = w := by simp
    rw [this]; exact .string
  by_cases h31 : n = 31
  · subst h31
    obtain ⟨c, rfl⟩ := rule31_word h
    exact ⟨_, rfl, tokenOf_byte d c⟩
  interval_cases n <;> first
    | omega
    | exact ⟨_, rfl, by first
        | exact tokenOf_ident d u
        | (constructor <;> simp)⟩

theorem lexAux_spec (d : Driver) : ∀ (n : ℕ) (text : List Char), text.length ≤ n →
    Lexes d text (lexAux d n text).1 (lexAux d n text).2
  | n, [], _ => by
    have : lexAux d n [] = (⟨Sym.EOF, none⟩, []) := by cases n <;> rfl
    rw [this]; exact .done
  | 0, c :: s, h => by simp at h
  | n + 1, c :: s, h => by
    obtain ⟨k, u, v, h1, h2⟩ := munch_spec (text := c :: s) (by simp)
    have hlt : v.length ≤ n := by
      have := congrArg List.length h2.1
      have hu := List.length_pos_iff.2 h2.2.1
      simp at this h
      omega
    have he : lexAux d (n + 1) (c :: s) = match action d k u with
        | some t => (t, v)
        | none => lexAux d n v := by
      rw [lexAux]
      · rw [h1]; rfl
      · simp
    rw [he]
    rcases action_spec d h2.2.2.1 with ⟨hs, ha⟩ | ⟨t, ha, ht⟩
    · rw [ha]; exact .skip h2 hs (lexAux_spec d n v hlt)
    · rw [ha]; exact .token h2 ht

/-- The token stream of `Scanner::lex` is the documented one. -/
theorem C42_lex (d : Driver) (text : List Char) : Lexes d text (lex d text).1 (lex d text).2 :=
  lexAux_spec d _ _ le_rfl

theorem tokenOf_not_skip {d : Driver} {n : ℕ} {u : List Char} {t : Tok} (h : TokenOf d n u t) :
    ¬ (n = 1 ∨ n = 2 ∨ n = 30) := by
  cases h <;> omega

theorem action_of_tokenOf {d : Driver} {n : ℕ} {u : List Char} {t : Tok} (h : TokenOf d n u t) :
    action d n u = some t := by
  cases h with
  | diamond h => rcases h with rfl | rfl <;> rfl
  | box h => rcases h with rfl | rfl <;> rfl
  | implies h => rcases h with rfl | rfl <;> rfl
  | lt h => rcases h with rfl | rfl <;> rfl
  | gt h => rcases h with rfl | rfl <;> rfl
  | constant h => rcases h with rfl | rfl | rfl <;> rfl
  | keyword h => simp only [action, identTok, reserved_lookup.2 h]
  | string => simp [action]
  | formula hn hf =>
    simp [action, identTok, reserved_none hn, hf]
  | param hn hf hp => simp [action, identTok, reserved_none hn, hf, hp]
  | signal hn hf hp hs => simp [action, identTok, reserved_none hn, hf, hp, hs]
  | test hn hf hp hs ht => simp [action, identTok, reserved_none hn, hf, hp, hs, ht]
  | fresh hn hf hp hs ht => simp [action, identTok, reserved_none hn, hf, hp, hs, ht]
  | @stop c h =>
    change some (Tok.mk (byteTok (min c.toNat 255)) none) = _
    unfold byteTok
    rw [if_pos (by omega)]
  | @other c h0 h1 h2 =>
    simp only [List.mem_cons, List.not_mem_nil, or_false, not_or] at h2
    obtain ⟨h3, h4, h5, h6⟩ := h2
    change some (Tok.mk (byteTok (min c.toNat 255)) none) = _
    unfold byteTok
    rw [if_neg (by omega),
      if_neg fun h => h3 (char_of_toNat (by change c.toNat = 58; omega)),
      if_neg fun h => h4 (char_of_toNat (by change c.toNat = 61; omega)),
      if_neg fun h => h5 (char_of_toNat (by change c.toNat = 123; omega)),
      if_neg fun h => h6 (char_of_toNat (by change c.toNat = 125; omega))]
  | _ => rfl

theorem lexes_lexAux {d : Driver} {text : List Char} {t : Tok} {rest : List Char}
    (h : Lexes d text t rest) : ∀ n, text.length ≤ n → lexAux d n text = (t, rest) := by
  induction h with
  | done => intro n _; cases n <;> rfl
  | @skip text k u v t rest hm hs _ ih =>
    intro n hn
    have ⟨hsplit, hu, _⟩ := hm
    have hlen := congrArg List.length hsplit
    have hu' := List.length_pos_iff.2 hu
    simp only [List.length_append] at hlen
    cases n with
    | zero => omega
    | succ n =>
      rw [lexAux, munch_eq hm]
      · have : action d k u = none := by rcases hs with rfl | rfl | rfl <;> rfl
        simp only [this]
        exact ih n (by omega)
      · rintro rfl; simp at hlen; omega
  | @token text k u v t hm ht =>
    intro n hn
    have ⟨hsplit, hu, _⟩ := hm
    have hlen := congrArg List.length hsplit
    have hu' := List.length_pos_iff.2 hu
    simp only [List.length_append] at hlen
    cases n with
    | zero => omega
    | succ n =>
      rw [lexAux, munch_eq hm]
      · simp only [action_of_tokenOf ht]
      · rintro rfl; simp at hlen; omega

/-- … and nothing else is a documented token. -/
theorem C42_lex_unique {d : Driver} {text : List Char} {t : Tok} {rest : List Char}
    (h : Lexes d text t rest) : lex d text = (t, rest) :=
  lexes_lexAux h _ le_rfl

/-! ## Gaps between tokens -/

/-- Text without meaning: blanks, newlines, and comments closed by a newline. -/
inductive Gap : List Char → Prop where
  | nil : Gap []
  | blank {c g} : c = ' ' ∨ c = '\t' ∨ c = '\r' → Gap g → Gap (c :: g)
  | newline {g} : Gap g → Gap ('\n' :: g)
  | comment {w g} : '\n' ∉ w → Gap g → Gap ('#' :: w ++ '\n' :: g)

theorem gap_append {g g' : List Char} (h : Gap g) (h' : Gap g') : Gap (g ++ g') := by
  induction h with
  | nil => exact h'
  | blank hc _ ih => exact .blank hc ih
  | newline _ ih => exact .newline ih
  | comment hw _ ih => simpa using Gap.comment hw ih

theorem gap_head {c : Char} {g : List Char} (h : Gap (c :: g)) : byte c ∈ gapBytes := by
  generalize he : c :: g = x at h
  cases h with
  | nil => simp at he
  | blank hc _ =>
    injection he with he _
    subst he
    rcases hc with rfl | rfl | rfl <;> decide
  | newline _ => injection he with he _; subst he; decide
  | comment _ _ => injection he with he _; subst he; decide

/-- One blank or more. -/
theorem rule1_iff {u : List Char} :
    RuleMatches 1 u ↔ u ≠ [] ∧ ∀ c ∈ u, byte c ∈ [9, 13, 32] := by
  have hstar : ∀ w : List Char, (∀ c ∈ w, byte c ∈ [9, 13, 32]) →
      (Re.star (.cls false [(32, 32), (9, 9), (13, 13)])).Matches w := by
    intro w
    induction w with
    | nil => intro _; exact .starNil
    | cons c w ih =>
      intro h
      refine .starCons (u := [c]) (.cls ?_) (ih fun e he => h e (by simp [he]))
      have := h c (by simp)
      simp only [byte, List.mem_cons, List.not_mem_nil, or_false] at this
      rcases this with h | h | h <;> rw [h] <;> decide
  have hcls : ∀ w : List Char, (Re.cls false [(32, 32), (9, 9), (13, 13)]).Matches w →
      ∃ c, w = [c] ∧ byte c ∈ [9, 13, 32] := by
    intro w hw
    obtain ⟨c, rfl, hc⟩ := Re.matches_cls.1 hw
    refine ⟨c, rfl, ?_⟩
    simp only [Re.inCls, List.any_cons, List.any_nil, Bool.or_false, bne_iff_ne, ne_eq,
      Bool.not_eq_false, Bool.or_eq_true, Bool.and_eq_true, decide_eq_true_eq] at hc
    simp only [List.mem_cons, List.not_mem_nil, or_false, byte]
    omega
  constructor
  · rintro ⟨_, r, hr, hm⟩
    simp only [lexRules] at hr
    injection hr with hr
    subst hr
    obtain ⟨a, b, rfl, ha, hb⟩ := Re.matches_seq.1 hm
    obtain ⟨c, rfl, hc⟩ := hcls a ha
    refine ⟨by simp, ?_⟩
    have : ∀ w, (Re.star (.cls false [(32, 32), (9, 9), (13, 13)])).Matches w →
        ∀ c ∈ w, byte c ∈ [9, 13, 32] := by
      intro w hw
      generalize hre : Re.star (.cls false [(32, 32), (9, 9), (13, 13)]) = re at hw
      induction hw with
      | starNil => simp
      | starCons h1 h2 _ ih =>
        injection hre with hre
        subst hre
        obtain ⟨c, rfl, hc⟩ := hcls _ h1
        intro e he
        rcases List.mem_cons.1 he with rfl | he
        · exact hc
        · exact ih rfl e he
      | _ => simp at hre
    intro e he
    rcases List.mem_cons.1 he with rfl | he
    · exact hc
    · exact this b hb e he
  · rintro ⟨hne, h⟩
    obtain ⟨c, w, rfl⟩ := List.exists_cons_of_ne_nil hne
    refine ⟨by decide, _, rfl, ?_⟩
    refine .seq (u := [c]) (v := w) ?_ (hstar w fun e he => h e (by simp [he]))
    refine .cls ?_
    have := h c (by simp)
    simp only [byte, List.mem_cons, List.not_mem_nil, or_false] at this
    rcases this with h | h | h <;> rw [h] <;> decide

theorem munch_blanks {b v : List Char} (hb : b ≠ []) (h : ∀ c ∈ b, byte c ∈ [9, 13, 32])
    (hv : ∀ c v', v = c :: v' → byte c ∉ [9, 13, 32]) : Munch (b ++ v) 1 b v :=
  munch_of_jam (rule1_iff.2 ⟨hb, h⟩) (fun _ hm => hm.1)
    fun c v' he => jam_blank (rule1_iff.2 ⟨hb, h⟩) (hv c v' he)

theorem split_blanks (text : List Char) : ∃ b v, text = b ++ v ∧
    (∀ c ∈ b, byte c ∈ [9, 13, 32]) ∧ ∀ c v', v = c :: v' → byte c ∉ [9, 13, 32] := by
  induction text with
  | nil => exact ⟨[], [], rfl, by simp, by simp⟩
  | cons c s ih =>
    by_cases hc : byte c ∈ [9, 13, 32]
    · obtain ⟨b, v, rfl, h1, h2⟩ := ih
      refine ⟨c :: b, v, rfl, ?_, h2⟩
      intro e he
      rcases List.mem_cons.1 he with rfl | he
      · exact hc
      · exact h1 e he
    · refine ⟨[], c :: s, rfl, by simp, ?_⟩
      intro e v' he
      injection he with he _
      exact he ▸ hc

theorem lexes_blank {d : Driver} {c : Char} {text : List Char} {t : Tok} {rest : List Char}
    (hc : byte c ∈ [9, 13, 32]) (h : Lexes d text t rest) : Lexes d (c :: text) t rest := by
  obtain ⟨b, v, rfl, hb, hv⟩ := split_blanks text
  have h1 : Munch (c :: b ++ v) 1 (c :: b) v := munch_blanks (by simp)
    (by
      intro e he
      rcases List.mem_cons.1 he with rfl | he
      · exact hc
      · exact hb e he) hv
  refine .skip h1 (.inl rfl) ?_
  by_cases hbn : b = []
  · subst hbn; simpa using h
  · have h2 := munch_blanks hbn hb hv
    generalize hx : b ++ v = x at h h2
    cases h with
    | done => simp at hx; exact absurd hx.1 hbn
    | skip hm _ hl =>
      obtain ⟨_, _, rfl⟩ := munch_unique h2 hm
      exact hl
    | token hm ht =>
      obtain ⟨rfl, _, _⟩ := munch_unique h2 hm
      exact absurd (.inl rfl) (tokenOf_not_skip ht)

theorem rule2_newline : RuleMatches 2 ['\n'] := ⟨by decide, _, rfl, .cls (by decide)⟩

theorem rule30_comment {w : List Char} (h : '\n' ∉ w) : RuleMatches 30 ('#' :: w ++ ['\n']) := by
  refine ⟨by decide, _, rfl, ?_⟩
  have hstar : (Re.star .any).Matches w := by
    induction w with
    | nil => exact .starNil
    | cons c w ih =>
      refine .starCons (u := [c]) (.cls ?_) (ih fun hw => h (by simp [hw]))
      have hc : c ≠ '\n' := fun hc => h (by simp [hc])
      have hn : c.toNat ≠ 10 := fun hn => hc (char_of_toNat (by change c.toNat = 10; exact hn))
      simp only [Re.inCls, List.any_cons, List.any_nil, Bool.or_false, bne_iff_ne, ne_eq,
        Bool.not_eq_true, Bool.and_eq_false_iff, decide_eq_false_iff_not]
      omega
  exact .seq (u := ['#']) (v := w ++ ['\n']) (.cls (by decide)) (.seq hstar (.cls (by decide)))

/-- No rule before 30 matches a closed comment. -/
theorem rule30_min {w : List Char} (m : ℕ) (hm : RuleMatches m ('#' :: w ++ ['\n'])) :
    30 ≤ m := by
  have hr := read_reach (u := ['#']) (w := w ++ ['\n']) (n := m) hm
  have h1 := (hr.2 m (w ++ ['\n'])).2 hm
  obtain ⟨r, hr, _⟩ := h1
  have hc : (vec (reach ['#'])).all (fun p => decide (30 ≤ p.1)) = true := by decide +kernel
  simpa using List.all_eq_true.1 hc _ hr

theorem rule2_min (m : ℕ) (hm : RuleMatches m ['\n']) : 2 ≤ m := by
  by_contra hlt
  obtain rfl : m = 1 := by have := hm.1; omega
  have := (rule1_iff.1 hm).2 '\n' (by simp)
  revert this
  decide

/-- Text without meaning may stand before any token. -/
theorem C42_gap {d : Driver} {g text : List Char} {t : Tok} {rest : List Char} (hg : Gap g)
    (h : Lexes d text t rest) : Lexes d (g ++ text) t rest := by
  induction hg with
  | nil => exact h
  | blank hc _ ih =>
    refine lexes_blank ?_ ih
    rcases hc with rfl | rfl | rfl <;> decide
  | @newline g _ ih =>
    have : Munch (['\n'] ++ (g ++ text)) 2 ['\n'] (g ++ text) :=
      munch_of_jam rule2_newline rule2_min
        fun c _ _ => jam_stop rule2_newline rule2_min (.inl rfl) c
    exact .skip this (.inr (.inl rfl)) ih
  | @comment w g hw _ ih =>
    have : Munch ('#' :: w ++ ['\n'] ++ (g ++ text)) 30 ('#' :: w ++ ['\n']) (g ++ text) :=
      munch_of_jam (rule30_comment hw) rule30_min
        fun c _ _ => jam_stop (rule30_comment hw) rule30_min (.inr rfl) c
    have e : '#' :: w ++ '\n' :: g ++ text = '#' :: w ++ ['\n'] ++ (g ++ text) := by simp
    rw [e]
    exact .skip this (.inr (.inr rfl)) ih

/-- A token followed by the end of the text or by text without meaning is read whole. -/
theorem C42_token {d : Driver} {n : ℕ} {u v : List Char} {t : Tok} (hm : RuleMatches n u)
    (hmin : ∀ m, RuleMatches m u → n ≤ m) (ht : TokenOf d n u t)
    (hq : u ≠ ['"']) (hc : u ≠ ['#'])
    (hv : ∀ c v', v = c :: v' → byte c ∈ gapBytes) : Lexes d (u ++ v) t v := by
  have hns := tokenOf_not_skip ht
  have h3 : 3 ≤ n := by have := hm.1; omega
  exact .token (munch_of_jam hm hmin fun c v' he =>
    jam_gap hm hmin h3 (by omega) hq hc (hv c v' he)) ht

/-- Adding blanks, newlines and comments after a token changes neither that token nor the
next one. -/
theorem C42_spacing {d : Driver} {n : ℕ} {u v g : List Char} {t : Tok}
    (hm : Munch (u ++ v) n u v) (ht : TokenOf d n u t) (hq : u ≠ ['"']) (hc : u ≠ ['#'])
    (hg : Gap g) (hne : g ≠ []) :
    lex d (u ++ v) = (t, v) ∧ lex d (u ++ (g ++ v)) = (t, g ++ v) ∧
    lex d (g ++ v) = lex d v := by
  refine ⟨C42_lex_unique (.token hm ht), ?_, C42_lex_unique (C42_gap hg (C42_lex d v))⟩
  refine C42_lex_unique (C42_token hm.2.2.1 hm.2.2.2.1 ht hq hc ?_)
  obtain ⟨c, g, rfl⟩ := List.exists_cons_of_ne_nil hne
  intro e v' he
  injection he with he _
  exact he ▸ gap_head hg

example : Gap " \t # note\n\n ".toList :=
  .blank (.inl rfl) (.blank (.inr (.inl rfl)) (.blank (.inl rfl)
    (.comment (w := " note".toList) (by decide) (.newline (.blank (.inl rfl) .nil)))))

/-! ## Identifiers and reserved words -/

/-- A letter followed by letters, digits and underscores. -/
def IdentWord (u : List Char) : Prop :=
  ∃ c w, u = c :: w ∧ c.isAlpha = true ∧ ∀ e ∈ w, e.isAlphanum = true ∨ e = '_'

theorem byte_alpha {c : Char} (h : c.isAlpha = true) :
    c.toNat = byte c ∧ (97 ≤ byte c ∧ byte c ≤ 122 ∨ 65 ≤ byte c ∧ byte c ≤ 90) := by
  simp only [Char.isAlpha, Char.isUpper, Char.isLower, Bool.or_eq_true, Bool.and_eq_true,
    decide_eq_true_eq, UInt32.le_iff_toNat_le] at h
  have e1 : 'A'.val.toNat = 65 := rfl
  have e2 : 'Z'.val.toNat = 90 := rfl
  have e3 : 'a'.val.toNat = 97 := rfl
  have e4 : 'z'.val.toNat = 122 := rfl
  have e5 : c.val.toNat = c.toNat := rfl
  unfold byte
  omega

theorem byte_word {c : Char} (h : c.isAlphanum = true ∨ c = '_') :
    97 ≤ byte c ∧ byte c ≤ 122 ∨ 65 ≤ byte c ∧ byte c ≤ 90 ∨ 48 ≤ byte c ∧ byte c ≤ 57 ∨
      byte c = 95 := by
  rcases h with h | rfl
  · simp only [Char.isAlphanum, Bool.or_eq_true] at h
    rcases h with h | h
    · have := byte_alpha h; omega
    · simp only [Char.isDigit, Bool.and_eq_true, decide_eq_true_eq, UInt32.le_iff_toNat_le,
        ge_iff_le] at h
      have e1 : '0'.val.toNat = 48 := rfl
      have e2 : '9'.val.toNat = 57 := rfl
      have e5 : c.val.toNat = c.toNat := rfl
      unfold byte
      omega
  · exact .inr (.inr (.inr rfl))

theorem rule25_ident {u : List Char} (h : IdentWord u) : RuleMatches 25 u := by
  obtain ⟨c, w, rfl, hc, hw⟩ := h
  refine ⟨by decide, _, rfl, .seq (u := [c]) (v := w) (.cls ?_) ?_⟩
  · have := byte_alpha hc
    change Re.inCls false [(97, 122), (65, 90)] (byte c) = true
    simp only [Re.inCls, List.any_cons, List.any_nil, Bool.or_false, bne_iff_ne, ne_eq,
      Bool.not_eq_false, Bool.or_eq_true, Bool.and_eq_true, decide_eq_true_eq]
    omega
  · induction w with
    | nil => exact .starNil
    | cons e w ih =>
      refine .starCons (u := [e]) (.cls ?_) (ih fun x hx => hw x (by simp [hx]))
      have := byte_word (hw e (by simp))
      change Re.inCls false [(65, 90), (97, 122), (48, 57), (95, 95)] (byte e) = true
      simp only [Re.inCls, List.any_cons, List.any_nil, Bool.or_false, bne_iff_ne, ne_eq,
        Bool.not_eq_false, Bool.or_eq_true, Bool.and_eq_true, decide_eq_true_eq]
      omega

theorem check_letter : ((List.range 256).all fun b =>
    !((decide (97 ≤ b) && decide (b ≤ 122)) || (decide (65 ≤ b) && decide (b ≤ 90))) ||
      (vec (next 1 (Scan.cls b))).all fun p => decide (25 ≤ p.1)) = true := by
  decide +kernel

theorem rule25_min {u : List Char} (h : IdentWord u) (m : ℕ) (hm : RuleMatches m u) : 25 ≤ m := by
  obtain ⟨c, w, rfl, hc, hw⟩ := h
  have hr := read_reach (u := [c]) (w := w) (n := m) hm
  obtain ⟨r, hr, _⟩ := (hr.2 m w).2 hm
  have hb := (byte_alpha hc).2
  have hk := List.all_eq_true.1 check_letter (byte c) (by simpa using byte_lt c)
  have e : reach [c] = next 1 (Scan.cls (byte c)) := rfl
  have hb' : ((decide (97 ≤ byte c) && decide (byte c ≤ 122)) ||
      (decide (65 ≤ byte c) && decide (byte c ≤ 90))) = true := by
    simpa using hb
  rw [hb'] at hk
  simp only [Bool.not_true, Bool.false_or, ← e] at hk
  simpa using List.all_eq_true.1 hk _ hr

/-- An identifier is read whole, and means: a reserved word if it is one; else a formula, a
parameter, a signal, a test, the first of these under which the driver knows it; else a new
name. -/
theorem C42_ident (d : Driver) {u v : List Char} (h : IdentWord u)
    (hv : ∀ c v', v = c :: v' → byte c ∈ gapBytes) :
    lex d (u ++ v) = (identTok d (String.ofList u), v) ∧
    TokenOf d 25 u (identTok d (String.ofList u)) := by
  refine ⟨C42_lex_unique (C42_token (rule25_ident h) (rule25_min h) (tokenOf_ident d u) ?_ ?_ hv),
    tokenOf_ident d u⟩
  all_goals
    rintro rfl
    obtain ⟨c, w, he, hc, _⟩ := h
    injection he with he _
    subst he
    exact absurd hc (by decide)

/-- The reserved words, including the synonyms of the symbols, whatever the driver holds. -/
theorem C42_reserved (d : Driver) {s : String} {k : ℕ} (h : (s, k) ∈ reserved) {v : List Char}
    (hv : ∀ c v', v = c :: v' → byte c ∈ gapBytes) :
    lex d (s.toList ++ v) = (⟨k, none⟩, v) := by
  have hall : (reserved.all fun p =>
      (p.1.toList.headD ' ').isAlpha && p.1.toList.tail.all fun e => e.isAlphanum || e == '_') = true := by
    decide +kernel
  have hw : IdentWord s.toList := by
    have := List.all_eq_true.1 hall _ h
    simp only [Bool.and_eq_true, List.all_eq_true, Bool.or_eq_true, beq_iff_eq] at this
    cases hs : s.toList with
    | nil => rw [hs] at this; exact absurd this.1 (by decide)
    | cons c w => rw [hs] at this; exact ⟨c, w, rfl, this.1, this.2⟩
  have := (C42_ident d hw hv).1
  rw [String.ofList_toList] at this
  rw [this, identTok, reserved_lookup.2 h]

theorem munch_nil : munch [] = none := by decide +kernel

theorem lex_of_munch (d : Driver) {text u v : List Char} {n : ℕ} {t : Tok}
    (h : munch text = some (n, u, v)) (ha : action d n u = some t) : lex d text = (t, v) := by
  unfold lex
  cases text with
  | nil => rw [munch_nil] at h; simp at h
  | cons c s =>
    rw [List.length_cons, lexAux, h]
    · simp only [ha]
    · simp

/-- `ev` and `alw` are words for `<>` and `[]`, and so on. -/
theorem C42_synonyms (d : Driver) {v : List Char} (hv : ∀ c v', v = c :: v' → byte c ∈ gapBytes) :
    (∀ s ∈ ["F", "F_", "ev", "ev_", "<>", "<>_"],
      lex d (s.toList ++ v) = (⟨Sym.DIAMOND, none⟩, v)) ∧
    (∀ s ∈ ["G", "G_", "alw", "alw_", "[]", "[]_"], lex d (s.toList ++ v) = (⟨Sym.BOX, none⟩, v)) ∧
    (∀ s ∈ ["U", "U_", "until", "until_"], lex d (s.toList ++ v) = (⟨Sym.UNTIL, none⟩, v)) ∧
    (∀ s ∈ ["and", "&"], lex d (s.toList ++ v) = (⟨Sym.AND, none⟩, v)) ∧
    (∀ s ∈ ["or", "|"], lex d (s.toList ++ v) = (⟨Sym.OR, none⟩, v)) ∧
    (∀ s ∈ ["not", "!"], lex d (s.toList ++ v) = (⟨Sym.NOT, none⟩, v)) ∧
    (∀ s ∈ ["=>", "->"], lex d (s.toList ++ v) = (⟨Sym.IMPLIES, none⟩, v)) ∧
    (∀ s ∈ ["<", "<="], lex d (s.toList ++ v) = (⟨Sym.LT, none⟩, v)) ∧
    (∀ s ∈ [">", ">="], lex d (s.toList ++ v) = (⟨Sym.GT, none⟩, v)) := by
  have sym : ∀ (s : String) (n : ℕ) (t : Tok), munch s.toList = some (n, s.toList, []) →
      TokenOf d n s.toList t → s.toList ≠ ['"'] → s.toList ≠ ['#'] →
      lex d (s.toList ++ v) = (t, v) := by
    intro s n t hm ht hq hc
    have hne : s.toList ≠ [] := by
      intro h; rw [h, munch_nil] at hm; simp at hm
    obtain ⟨n', u', v', h1, h2⟩ := munch_spec hne
    rw [hm] at h1
    simp only [Option.some.injEq, Prod.mk.injEq] at h1
    obtain ⟨rfl, rfl, rfl⟩ := h1
    exact C42_lex_unique (C42_token h2.2.2.1 h2.2.2.2.1 ht hq hc hv)
  have word : ∀ (s : String) (k : ℕ), (s, k) ∈ reserved → lex d (s.toList ++ v) = (⟨k, none⟩, v) :=
    fun s k h => C42_reserved d h hv
  simp only [List.mem_cons, List.not_mem_nil, or_false, forall_eq_or_imp, forall_eq]
  refine ⟨⟨word _ _ (by decide), word _ _ (by decide), word _ _ (by decide), word _ _ (by decide),
      sym "<>" 3 _ (by decide +kernel) (.diamond (by decide)) (by decide) (by decide),
      sym "<>_" 4 _ (by decide +kernel) (.diamond (by decide)) (by decide) (by decide)⟩,
    ⟨word _ _ (by decide), word _ _ (by decide), word _ _ (by decide), word _ _ (by decide),
      sym "[]" 5 _ (by decide +kernel) (.box (by decide)) (by decide) (by decide),
      sym "[]_" 6 _ (by decide +kernel) (.box (by decide)) (by decide) (by decide)⟩,
    ⟨word _ _ (by decide), word _ _ (by decide), word _ _ (by decide), word _ _ (by decide)⟩,
    ⟨word _ _ (by decide), sym "&" 19 _ (by decide +kernel) .and (by decide) (by decide)⟩,
    ⟨word _ _ (by decide), sym "|" 20 _ (by decide +kernel) .or (by decide) (by decide)⟩,
    ⟨word _ _ (by decide), sym "!" 17 _ (by decide +kernel) .not (by decide) (by decide)⟩,
    ⟨sym "=>" 11 _ (by decide +kernel) (.implies (by decide)) (by decide) (by decide),
      sym "->" 12 _ (by decide +kernel) (.implies (by decide)) (by decide) (by decide)⟩,
    ⟨sym "<" 13 _ (by decide +kernel) (.lt (by decide)) (by decide) (by decide),
      sym "<=" 15 _ (by decide +kernel) (.lt (by decide)) (by decide) (by decide)⟩,
    ⟨sym ">" 14 _ (by decide +kernel) (.gt (by decide)) (by decide) (by decide),
      sym ">=" 16 _ (by decide +kernel) (.gt (by decide)) (by decide) (by decide)⟩⟩

example : ∀ c v', " x".toList = c :: v' → byte c ∈ gapBytes := by
  intro c v' h
  injection h with h _
  subst h
  decide

example : IdentWord "speed_2".toList :=
  ⟨'s', "peed_2".toList, rfl, by decide, by decide⟩

/-! ## Where the text departs from what one would expect -/

/-- A comment on a last line without newline is not a comment: the scanner returns an
undefined token, so parsing fails. -/
theorem C42_comment_false (d : Driver) {w : List Char} (h : '\n' ∉ w) :
    lex d ('#' :: w) = (⟨Sym.undef, none⟩, w) := by
  refine C42_lex_unique (.token (n := 31) (u := ['#']) ⟨rfl, by simp, ⟨by decide, _, rfl, .cls (by decide)⟩, ?_, ?_⟩
    (.other (by decide) (by decide) (by decide)))
  · intro m hm
    have hr := read_reach (u := ['#']) (w := []) (n := m) hm
    obtain ⟨r, hr, hn⟩ := (hr.2 m []).2 hm
    have hc : (vec (reach ['#'])).all (fun p => decide (31 ≤ p.1) || !(Re.nullable p.2)) = true := by
      decide +kernel
    have := List.all_eq_true.1 hc _ hr
    simpa [Re.matches_nil.1 hn] using this
  · intro m u' v' he hm
    by_contra hlt
    push Not at hlt
    obtain ⟨c, x, rfl⟩ := List.exists_cons_of_ne_nil (l := u') (by rintro rfl; simp at hlt)
    simp only [List.cons_append] at he
    injection he with he1 he2
    subst he1
    have hr := read_reach (u := ['#']) (w := x) (n := m) hm
    obtain ⟨r, hr, _⟩ := (hr.2 m x).2 hm
    have hc : (vec (reach ['#'])).all (fun p => p.1 == 30 || p.1 == 31) = true := by decide +kernel
    have hmm : m = 30 ∨ m = 31 := by simpa using List.all_eq_true.1 hc _ hr
    rcases hmm with rfl | rfl
    · obtain ⟨_, r, hr, hm⟩ := hm
      simp only [lexRules] at hr
      injection hr with hr
      subst hr
      obtain ⟨a, b, hab, ha, hb⟩ := Re.matches_seq.1 hm
      obtain ⟨b1, b2, rfl, hb1, hb2⟩ := Re.matches_seq.1 hb
      obtain ⟨e, rfl, hee⟩ := Re.matches_cls.1 ha
      obtain ⟨f, rfl, hf⟩ := Re.matches_cls.1 hb2
      have : f = '\n' := by
        apply char_of_toNat
        change f.toNat = 10
        have : 10 ≤ f.toNat ∧ f.toNat ≤ 10 := by simpa [Re.inCls] using hf
        omega
      subst this
      apply h
      have hx : x = b1 ++ ['\n'] := by simpa using (List.cons.inj hab).2
      rw [he2, hx]; simp
    · obtain ⟨c, hc⟩ := rule31_word hm
      rw [hc] at hlt; simp at hlt

theorem check_high : ((List.range 256).all fun b => !(b == 0 || decide (128 ≤ b)) ||
    (yyAccept.getD (next 1 (Scan.cls b)) 0 == 31 &&
      (List.range 256).all fun e => next (next 1 (Scan.cls b)) (Scan.cls e) == jam)) = true := by
  decide +kernel

/-- A byte above 127, or a NUL, where a token is expected ends the input: everything after it
is ignored. -/
theorem C42_high_false (d : Driver) {c : Char} (s : List Char) (h : c.toNat = 0 ∨ 128 ≤ c.toNat) :
    (lex d (c :: s)).1 = (lex d []).1 := by
  have hm : RuleMatches 31 [c] := by
    refine ⟨by decide, _, rfl, .cls ?_⟩
    simp only [Re.inCls, List.any_cons, List.any_nil, Bool.or_false, bne_iff_ne, ne_eq,
      Bool.not_eq_true, Bool.and_eq_false_iff, decide_eq_false_iff_not]
    omega
  have hb := List.all_eq_true.1 check_high (byte c) (by simpa using byte_lt c)
  have h1 : (byte c == 0 || decide (128 ≤ byte c)) = true := by
    rw [Bool.or_eq_true, beq_iff_eq, decide_eq_true_eq]; unfold byte; omega
  have e : reach [c] = next 1 (Scan.cls (byte c)) := rfl
  rw [h1] at hb
  simp only [Bool.not_true, Bool.false_or, Bool.and_eq_true, beq_iff_eq, ← e] at hb
  have hr := read_reach (u := [c]) (w := []) (n := 31) hm
  have hmin : ∀ m, RuleMatches m [c] → 31 ≤ m := by
    intro m hm'
    have hv := (hr.2 m []).2 hm'
    rcases ruleNow_spec (sorted_live hr.1).1 (sorted_live hr.1).2 with ⟨_, h0⟩ | ⟨_, _, h2⟩
    · exact absurd hv (h0 m)
    · rw [← accept_live hr.1, hb.1] at h2
      exact h2 m hv
  have hj : ∀ e v', s = e :: v' → next (reach [c]) (Scan.cls (byte e)) = jam := by
    intro e v' _
    simpa using List.all_eq_true.1 hb.2 (byte e) (by simpa using byte_lt e)
  have hl : Lexes d ([c] ++ s) ⟨Sym.EOF, none⟩ s :=
    .token (munch_of_jam (v := s) hm hmin hj) (.stop h)
  have h2 := C42_lex_unique hl
  have h3 := C42_lex_unique (Lexes.done (d := d))
  rw [List.singleton_append] at h2
  rw [h2, h3]

/-- A point with no digits is a number token, and its text is no number. -/
theorem C42_point_false (d : Driver) :
    lex d ".".toList = (⟨Sym.CONSTANT, some "."⟩, []) ∧ Text.sToD "." = none :=
  ⟨lex_of_munch d (n := 27) (u := ".".toList) (by decide +kernel) rfl, by decide +kernel⟩

/-- A minus sign directly before a number is the number's sign, even after an operand. -/
theorem C42_minus_false (d : Driver) :
    lex d "-3".toList = (⟨Sym.CONSTANT, some "-3"⟩, []) ∧
    lex d "- 3".toList = (⟨Sym.MINUS, none⟩, " 3".toList) :=
  ⟨lex_of_munch d (n := 28) (u := "-3".toList) (by decide +kernel) rfl,
    lex_of_munch d (n := 23) (u := "-".toList) (by decide +kernel) rfl⟩

end Props
end STLRom
