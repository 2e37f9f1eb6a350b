import Verif.Proofs.Moves

/-!
# Words and the texts that spell them
-/

namespace STLRom
namespace Props
open Scan Text Parse Spec

/-- Nothing, or a text that begins with a blank, a newline or a comment. -/
def GapStart (v : List Char) : Prop := ∀ c v', v = c :: v' → byte c ∈ gapBytes

/-- No rule of the scanner matches more than `w` at the front of `w ++ v`. -/
def Stops (w v : List Char) : Prop :=
  ∀ m x v', w ++ v = x ++ v' → RuleMatches m x → x.length ≤ w.length

/-- `text` consists of the words `ws`, in order, with text without meaning (blanks, newlines,
comments) before, between and after them; there may be nothing between two words if the first
does not run on into the second. -/
inductive Spelled : List (List Char) → List Char → Prop where
  | nil {g} : Gap g → Spelled [] g
  | cons {g w ws text} : Gap g → Stops w text → Spelled ws text → Spelled (w :: ws) (g ++ w ++ text)

/-- The word `w` on its own is the token `t`. -/
def Word (d : Driver) (w : List Char) (t : Tok) : Prop :=
  ∃ n, RuleMatches n w ∧ (∀ m, RuleMatches m w → n ≤ m) ∧ TokenOf d n w t

theorem stops_munch {w v : List Char} {n : ℕ} (h : munch (w ++ v) = some (n, w, v)) : Stops w v := by
  rcases hwv : w ++ v with _ | ⟨c, l⟩
  · rw [hwv, munch_nil] at h; simp at h
  · obtain ⟨n', u', v', h1, h2⟩ := munch_spec (text := w ++ v) (by rw [hwv]; simp)
    rw [h] at h1
    simp only [Option.some.injEq, Prod.mk.injEq] at h1
    obtain ⟨rfl, rfl, rfl⟩ := h1
    exact h2.2.2.2.2

theorem stops_jam {w v : List Char} {n : ℕ} (h : RuleMatches n w)
    (hmin : ∀ m, RuleMatches m w → n ≤ m)
    (hj : ∀ c v', v = c :: v' → next (reach w) (cls (byte c)) = jam) : Stops w v :=
  (munch_of_jam h hmin hj).2.2.2.2

theorem word_rule {d : Driver} {w : List Char} {n : ℕ} {t : Tok} (h : RuleMatches n w)
    (hmin : ∀ m, RuleMatches m w → n ≤ m) (ht : TokenOf d n w t) : Word d w t := ⟨n, h, hmin, ht⟩

theorem word_lex {d : Driver} {w : List Char} {t : Tok} (h : Word d w t) {v : List Char}
    (hv : Stops w v) : lex d (w ++ v) = (t, v) := by
  obtain ⟨n, h, hmin, ht⟩ := h
  exact C42_lex_unique (.token ⟨rfl, (by rintro rfl; exact not_rule_nil n h), h, hmin, hv⟩ ht)

theorem stops_nil (w : List Char) : Stops w [] := by
  intro m x v' h _
  rw [List.append_nil] at h
  rw [h, List.length_append]
  omega

theorem word_unique {d : Driver} {w : List Char} {t t' : Tok} (h : Word d w t) (h' : Word d w t') :
    t = t' := by
  have h1 := word_lex h (stops_nil w)
  rw [word_lex h' (stops_nil w)] at h1
  exact (Prod.mk.inj h1).1.symm

/-- A word for one driver is a word for every driver. -/
theorem word_any {d : Driver} {w : List Char} {t : Tok} (h : Word d w t) (d' : Driver) :
    ∃ t', Word d' w t' := by
  obtain ⟨n, h, hmin, ht⟩ := h
  suffices ∃ t', TokenOf d' n w t' from this.imp fun t' ht' => ⟨n, h, hmin, ht'⟩
  cases ht with
  | diamond h => exact ⟨_, .diamond h⟩
  | box h => exact ⟨_, .box h⟩
  | lint => exact ⟨_, .lint⟩
  | rint => exact ⟨_, .rint⟩
  | lparen => exact ⟨_, .lparen⟩
  | rparen => exact ⟨_, .rparen⟩
  | implies h => exact ⟨_, .implies h⟩
  | lt h => exact ⟨_, .lt h⟩
  | gt h => exact ⟨_, .gt h⟩
  | not => exact ⟨_, .not⟩
  | comma => exact ⟨_, .comma⟩
  | and => exact ⟨_, .and⟩
  | or => exact ⟨_, .or⟩
  | assign => exact ⟨_, .assign⟩
  | plus => exact ⟨_, .plus⟩
  | minus => exact ⟨_, .minus⟩
  | mult => exact ⟨_, .mult⟩
  | keyword _ => exact ⟨_, tokenOf_ident d' w⟩
  | formula _ _ => exact ⟨_, tokenOf_ident d' w⟩
  | param _ _ _ => exact ⟨_, tokenOf_ident d' w⟩
  | signal _ _ _ _ => exact ⟨_, tokenOf_ident d' w⟩
  | test _ _ _ _ _ => exact ⟨_, tokenOf_ident d' w⟩
  | fresh _ _ _ _ _ => exact ⟨_, tokenOf_ident d' w⟩
  | constant h => exact ⟨_, .constant h⟩
  | string => exact ⟨_, .string⟩
  | colon => exact ⟨_, .colon⟩
  | equals => exact ⟨_, .equals⟩
  | lbrace => exact ⟨_, .lbrace⟩
  | rbrace => exact ⟨_, .rbrace⟩
  | stop hc => exact ⟨_, .stop hc⟩
  | other h1 h2 h3 => exact ⟨_, .other h1 h2 h3⟩

theorem words_any {d : Driver} {ws : List (List Char)} {ts : List Tok}
    (h : List.Forall₂ (Word d) ws ts) (d' : Driver) : ∃ ts', List.Forall₂ (Word d') ws ts' := by
  induction h with
  | nil => exact ⟨[], .nil⟩
  | cons hw _ ih =>
    obtain ⟨t', ht⟩ := word_any hw d'
    obtain ⟨ts', hts⟩ := ih
    exact ⟨t' :: ts', .cons ht hts⟩

/-- A word other than `"` and `#` stops before a gap. -/
theorem stops_gap {d : Driver} {w v : List Char} {n : ℕ} {t : Tok} (h : RuleMatches n w)
    (hmin : ∀ m, RuleMatches m w → n ≤ m) (ht : TokenOf d n w t) (hq : w ≠ ['"']) (hc : w ≠ ['#'])
    (hv : GapStart v) : Stops w v := by
  have hns := tokenOf_not_skip ht
  have h3 : 3 ≤ n := by have := h.1; omega
  exact stops_jam h hmin fun c v' he => jam_gap h hmin h3 (by omega) hq hc (hv c v' he)

theorem lex_gap {d : Driver} {g v : List Char} (hg : Gap g) : lex d (g ++ v) = lex d v :=
  C42_lex_unique (C42_gap hg (C42_lex d v))

theorem lex_nil (d : Driver) : lex d [] = (⟨Sym.EOF, none⟩, []) := rfl

theorem lex_gap_end {d : Driver} {g : List Char} (hg : Gap g) : lex d g = (⟨Sym.EOF, none⟩, []) := by
  have := lex_gap (d := d) (v := []) hg
  rwa [List.append_nil, lex_nil] at this

theorem lex_word {d : Driver} {g w v : List Char} {t : Tok} (hg : Gap g) (hw : Word d w t)
    (hv : Stops w v) : lex d (g ++ w ++ v) = (t, v) := by
  rw [List.append_assoc, lex_gap hg, word_lex hw hv]

/-- `text` spells the last `n` of the words `ws₀`. -/
def Suf (ws₀ : List (List Char)) (text : List Char) (n : ℕ) : Prop :=
  ∃ ws, ws <:+ ws₀ ∧ ws.length = n ∧ Spelled ws text

theorem suf_spelled {ws₀ ws : List (List Char)} {text : List Char} {n : ℕ} (h : Suf ws₀ text n)
    (hs : ws <:+ ws₀) (hn : ws.length = n) : Spelled ws text := by
  obtain ⟨ws', h1, h2, h3⟩ := h
  rwa [List.IsSuffix.eq_of_length (List.suffix_of_suffix_length_le hs h1 (by omega)) (by omega)]

theorem lexed_suf {d : Driver} {ws₀ ws : List (List Char)} {text : List Char} (h : Spelled ws text) :
    ∀ {ts : List Tok}, ws <:+ ws₀ → List.Forall₂ (Word d) ws ts → Lexed d (Suf ws₀) text ts := by
  induction h with
  | nil hg =>
    intro ts hs hf
    cases hf
    exact .nil ⟨[], hs, rfl, .nil hg⟩ (lex_gap_end hg)
  | @cons g w ws text hg hv hsp ih =>
    intro ts hs hf
    rcases hf with _ | ⟨hw, hf⟩
    exact .cons ⟨w :: ws, hs, by rw [List.length_cons, hf.length_eq], .cons hg hv hsp⟩ (lex_word hg hw hv)
      (ih ((List.suffix_cons w ws).trans hs) hf)

theorem lexed_words {d : Driver} {ws : List (List Char)} {text : List Char} (h : Spelled ws text)
    {ts : List Tok} (hf : List.Forall₂ (Word d) ws ts) : Lexed d (Suf ws) text ts :=
  lexed_suf h List.suffix_rfl hf

theorem word_sym (d : Driver) {s : String} {n : ℕ} {t : Tok} (hm : munch s.toList = some (n, s.toList, []))
    (ht : TokenOf d n s.toList t) : Word d s.toList t := by
  have hne : s.toList ≠ [] := by
    intro h; rw [h, munch_nil] at hm; simp at hm
  obtain ⟨n', u', v', h1, h2⟩ := munch_spec hne
  rw [hm] at h1
  simp only [Option.some.injEq, Prod.mk.injEq] at h1
  obtain ⟨rfl, rfl, rfl⟩ := h1
  exact word_rule h2.2.2.1 h2.2.2.2.1 ht

theorem word_ident (d : Driver) {u : List Char} (h : IdentWord u) :
    Word d u (identTok d (String.ofList u)) :=
  word_rule (rule25_ident h) (rule25_min h) (tokenOf_ident d u)

theorem ident_reserved {s : String} {k : ℕ} (h : (s, k) ∈ reserved) : IdentWord s.toList := by
  have hall : (reserved.all fun p =>
      (p.1.toList.headD ' ').isAlpha && p.1.toList.tail.all fun e => e.isAlphanum || e == '_') = true := by
    decide +kernel
  have := List.all_eq_true.1 hall _ h
  simp only [Bool.and_eq_true, List.all_eq_true, Bool.or_eq_true, beq_iff_eq] at this
  cases hs : s.toList with
  | nil => rw [hs] at this; exact absurd this.1 (by decide)
  | cons c w => rw [hs] at this; exact ⟨c, w, rfl, this.1, this.2⟩

theorem word_reserved (d : Driver) {s : String} {k : ℕ} (h : (s, k) ∈ reserved) :
    Word d s.toList ⟨k, none⟩ := by
  have hw := word_ident d (ident_reserved h)
  have ht : identTok d (String.ofList s.toList) = ⟨k, none⟩ := by
    rw [String.ofList_toList]
    unfold identTok
    rw [reserved_lookup.2 h]
  rwa [ht] at hw

theorem word_comma (d : Driver) : Word d ",".toList ⟨Sym.COMMA, none⟩ :=
  word_sym d (n := 18) (by decide +kernel) .comma
theorem word_lparen (d : Driver) : Word d "(".toList ⟨Sym.LPAREN, none⟩ :=
  word_sym d (n := 9) (by decide +kernel) .lparen
theorem word_rparen (d : Driver) : Word d ")".toList ⟨Sym.RPAREN, none⟩ :=
  word_sym d (n := 10) (by decide +kernel) .rparen
theorem word_lint (d : Driver) : Word d "[".toList ⟨Sym.LINT, none⟩ :=
  word_sym d (n := 7) (by decide +kernel) .lint
theorem word_rint (d : Driver) : Word d "]".toList ⟨Sym.RINT, none⟩ :=
  word_sym d (n := 8) (by decide +kernel) .rint
theorem word_assign (d : Driver) : Word d ":=".toList ⟨Sym.ASSIGN, none⟩ :=
  word_sym d (n := 21) (by decide +kernel) .assign
theorem word_plus (d : Driver) : Word d "+".toList ⟨Sym.PLUS, none⟩ :=
  word_sym d (n := 22) (by decide +kernel) .plus
theorem word_minus (d : Driver) : Word d "-".toList ⟨Sym.MINUS, none⟩ :=
  word_sym d (n := 23) (by decide +kernel) .minus
theorem word_mult (d : Driver) : Word d "*".toList ⟨Sym.MULT, none⟩ :=
  word_sym d (n := 24) (by decide +kernel) .mult
theorem word_lt (d : Driver) : Word d "<".toList ⟨Sym.LT, none⟩ :=
  word_sym d (n := 13) (by decide +kernel) (.lt (by decide))
theorem word_gt (d : Driver) : Word d ">".toList ⟨Sym.GT, none⟩ :=
  word_sym d (n := 14) (by decide +kernel) (.gt (by decide))
theorem word_implies (d : Driver) : Word d "=>".toList ⟨Sym.IMPLIES, none⟩ :=
  word_sym d (n := 11) (by decide +kernel) (.implies (by decide))
theorem word_equals (d : Driver) : Word d "=".toList ⟨Sym.EQUALS, none⟩ :=
  word_sym d (n := 31) (by decide +kernel) .equals

/-! ## Where words stop -/

theorem check_ident_stop : ((List.range 46).all fun s =>
    !live s || !(yyAccept.getD s 0 == 25) ||
      (List.range 256).all fun b => (decide (97 ≤ b) && decide (b ≤ 122)) ||
        (decide (65 ≤ b) && decide (b ≤ 90)) || (decide (48 ≤ b) && decide (b ≤ 57)) || b == 95 ||
        next s (cls b) == jam) = true := by
  decide +kernel

theorem check_number_stop : ((List.range 46).all fun s =>
    !live s || !(yyAccept.getD s 0 == 26 || yyAccept.getD s 0 == 27 || yyAccept.getD s 0 == 28) ||
      (List.range 256).all fun b => (decide (48 ≤ b) && decide (b ≤ 57)) || b == 46 ||
        next s (cls b) == jam) = true := by
  decide +kernel

theorem check_bracket_stop : ([40, 41, 93, 44].all fun b =>
    (List.range 256).all fun e => next (next 1 (cls b)) (cls e) == jam) = true := by
  decide +kernel

theorem check_lint_stop : ((List.range 256).all fun e => e == 93 ||
    next (next 1 (cls 91)) (cls e) == jam) = true := by
  decide +kernel

/-- An identifier stops before any character that cannot continue it. -/
theorem stops_ident {w v : List Char} (h : IdentWord w)
    (hv : ∀ c v', v = c :: v' → ¬ (c.isAlphanum = true ∨ c = '_')) : Stops w v := by
  have hm := rule25_ident h
  have hr := read_reach (u := w) (w := []) (by simpa using hm)
  refine stops_jam hm (rule25_min h) fun c v' he => ?_
  have hk := List.all_eq_true.1 check_ident_stop (reach w) (by simpa using live_lt hr.1)
  simp only [hr.1, accept_reach hm (rule25_min h), Bool.not_true, Bool.false_or, beq_self_eq_true,
    List.all_eq_true, List.mem_range] at hk
  have hk := hk _ (byte_lt c)
  simp only [Bool.or_eq_true, Bool.and_eq_true, decide_eq_true_eq, beq_iff_eq] at hk
  refine hk.resolve_left fun hb => hv c v' he ?_
  have hc : c.toNat = byte c := by unfold byte at hb ⊢; omega
  have e5 : c.val.toNat = c.toNat := rfl
  simp only [Char.isAlphanum, Char.isAlpha, Char.isUpper, Char.isLower, Char.isDigit, Bool.or_eq_true,
    Bool.and_eq_true, decide_eq_true_eq, UInt32.le_iff_toNat_le, ge_iff_le]
  have e1 : 'A'.val.toNat = 65 := rfl
  have e2 : 'Z'.val.toNat = 90 := rfl
  have e3 : 'a'.val.toNat = 97 := rfl
  have e4 : 'z'.val.toNat = 122 := rfl
  have e6 : '0'.val.toNat = 48 := rfl
  have e7 : '9'.val.toNat = 57 := rfl
  rcases hb with hb | hb
  · left; omega
  · right
    exact char_of_toNat (by rw [hc, hb]; rfl)

/-- Brackets and commas stop before anything. -/
theorem stops_bracket {c : Char} {v : List Char} (h : c ∈ ['(', ')', ']', ',']) : Stops [c] v := by
  have hb : byte c ∈ [40, 41, 93, 44] := by
    simp only [List.mem_cons, List.not_mem_nil, or_false] at h
    rcases h with rfl | rfl | rfl | rfl <;> decide
  have hm : ∃ n, munch [c] = some (n, [c], []) := by
    simp only [List.mem_cons, List.not_mem_nil, or_false] at h
    rcases h with rfl | rfl | rfl | rfl <;> exact ⟨_, rfl⟩
  obtain ⟨n, hm⟩ := hm
  obtain ⟨n', u', v', h1, h2⟩ := munch_spec (text := [c]) (by simp)
  rw [hm] at h1
  simp only [Option.some.injEq, Prod.mk.injEq] at h1
  obtain ⟨rfl, rfl, rfl⟩ := h1
  refine stops_jam h2.2.2.1 h2.2.2.2.1 fun e v' _ => ?_
  have := List.all_eq_true.1 (List.all_eq_true.1 check_bracket_stop _ hb) (byte e) (by simpa using byte_lt e)
  rw [beq_iff_eq] at this
  exact this

/-- `[` stops before anything but `]`. -/
theorem stops_lint {v : List Char} (h : ∀ v', v ≠ ']' :: v') : Stops ['['] v := by
  have hm : munch ['['] = some (7, ['['], []) := rfl
  obtain ⟨n', u', v', h1, h2⟩ := munch_spec (text := ['[']) (by simp)
  rw [hm] at h1
  simp only [Option.some.injEq, Prod.mk.injEq] at h1
  obtain ⟨rfl, rfl, rfl⟩ := h1
  refine stops_jam h2.2.2.1 h2.2.2.2.1 fun e v' he => ?_
  have := List.all_eq_true.1 check_lint_stop (byte e) (by simpa using byte_lt e)
  simp only [Bool.or_eq_true, beq_iff_eq] at this
  refine this.resolve_left fun hb => h v' ?_
  rw [he, char_of_toNat (c := e) (e := ']') (by change e.toNat = 93; unfold byte at hb; omega)]

end Props
end STLRom
