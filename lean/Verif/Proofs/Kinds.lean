import Verif.Proofs.Flat

/-!
# From kinds of tokens back to words

Which words have a token of a given kind, and how a sequence of words that derives from a
nonterminal of formulas is read.
-/

namespace STLRom
namespace Parse
open Scan Text Props Spec

theorem matches_chr {c : Char} (hc : c.toNat < 255) {u : List Char} (h : (Re.chr c).Matches u) : u = [c] := by
  cases h with
  | @cls _ _ e h =>
    simp only [Re.inCls, List.any_cons, List.any_nil, Bool.or_false, bne_iff_ne, ne_eq, Bool.not_eq_false, Bool.and_eq_true,
      decide_eq_true_eq] at h
    have : e.toNat = c.toNat := by omega
    rw [Char.toNat_inj.1 this]

theorem matches_lit : ∀ {s : List Char}, (∀ c ∈ s, c.toNat < 255) → ∀ {u : List Char},
    (Re.lit s).Matches u → u = s
  | [], _, u, h => by
    cases h; rfl
  | [c], hs, u, h => matches_chr (hs c (by simp)) h
  | c :: c' :: s, hs, u, h => by
    cases h with
    | seq h1 h2 =>
      rw [matches_chr (hs c (by simp)) h1, matches_lit (fun e he => hs e (by simp [he])) h2]
      rfl

/-- The fixed texts of rules 3 to 24. -/
def fixed : List (List Char) :=
  [['<', '>'], ['<', '>', '_'], ['[', ']'], ['[', ']', '_'], ['['], [']'], ['('], [')'],
   ['=', '>'], ['-', '>'], ['<'], ['>'], ['<', '='], ['>', '='], ['!'], [','], ['&'], ['|'],
   [':', '='], ['+'], ['-'], ['*']]

theorem rule_fixed {n : ℕ} (h3 : 3 ≤ n) (h24 : n ≤ 24) {w : List Char} (h : RuleMatches n w) :
    w = fixed.getD (n - 3) [] := by
  obtain ⟨-, r, hr, hm⟩ := h
  interval_cases n <;>
    (simp only [lexRules, Nat.reduceSub, List.getElem?_cons_succ, List.getElem?_cons_zero,
      Option.some.injEq] at hr
     subst hr
     rw [matches_lit (by decide) hm]
     rfl)

/-- Neither a number with a plus sign nor one that ends in a point. -/
def Plain (w : List Char) : Prop := (∀ u, w = '+' :: u → u = []) ∧ ∀ u, w ≠ u ++ ['.']

theorem matches_digits {u : List Char} (h : (Re.star Re.digit).Matches u) :
    ∃ ds : List (Fin 10), u = Lit.chars ds := by
  generalize hr : Re.star Re.digit = r at h
  induction h with
  | starNil => exact ⟨[], rfl⟩
  | @starCons a u v h1 _ _ ih =>
    obtain rfl : Re.digit = a := by simpa using hr
    obtain ⟨ds, rfl⟩ := ih rfl
    cases h1 with
    | @cls _ _ c h =>
      simp only [Re.inCls, List.any_cons, List.any_nil, Bool.or_false, bne_iff_ne, ne_eq, Bool.not_eq_false, Bool.and_eq_true,
        decide_eq_true_eq] at h
      refine ⟨⟨c.toNat - 48, by omega⟩ :: ds, ?_⟩
      simp only [Lit.chars, List.map_cons, List.singleton_append, List.cons.injEq, and_true]
      have : 48 + (c.toNat - 48) = c.toNat := by omega
      rw [this, Char.ofNat_toNat]
  | _ => simp at hr

theorem matches_digits1 {u : List Char} (h : (Re.plus Re.digit).Matches u) :
    ∃ ds : List (Fin 10), ds ≠ [] ∧ u = Lit.chars ds := by
  cases h with
  | seq h1 h2 =>
    obtain ⟨ds, h⟩ := matches_digits (.starCons h1 h2)
    refine ⟨ds, ?_, h⟩
    rintro rfl
    cases h1 with
    | cls _ => simp [Lit.chars] at h

theorem matches_sign {u : List Char} (h : Re.sign.Matches u) : u = [] ∨ u = ['-'] ∨ u = ['+'] := by
  cases h with
  | altL h => cases h; exact .inl rfl
  | altR h =>
    cases h with
    | @cls _ _ c h =>
      simp only [Re.inCls, List.any_cons, List.any_nil, Bool.or_false, bne_iff_ne, ne_eq, Bool.not_eq_false, Bool.or_eq_true,
        Bool.and_eq_true, decide_eq_true_eq] at h
      have : c.toNat = 45 ∨ c.toNat = 43 := by omega
      rcases this with h | h
      · exact .inr (.inl (by rw [Char.toNat_inj.1 (show c.toNat = '-'.toNat from h)]))
      · exact .inr (.inr (by rw [Char.toNat_inj.1 (show c.toNat = '+'.toNat from h)]))

/-- Numbers without plus sign and final point are literals. -/
theorem rule_lit' {n : ℕ} (hn : n = 26 ∨ n = 27 ∨ n = 28) {w : List Char} (h : RuleMatches n w)
    (hp : Plain w) : ∃ l : Lit, l.whole ++ l.frac ≠ [] ∧ w = l.word := by
  obtain ⟨-, r, hr, hm⟩ := h
  have hs : ∀ {u v : List Char}, Re.sign.Matches u → v ≠ [] → w = u ++ v →
      ∃ neg : Bool, u = if neg then ['-'] else [] := by
    intro u v hu hv hw
    rcases matches_sign hu with rfl | rfl | rfl
    · exact ⟨false, rfl⟩
    · exact ⟨true, rfl⟩
    · exact absurd (hp.1 v hw) hv
  have hc : ∀ {ds : List (Fin 10)}, ds ≠ [] → Lit.chars ds ≠ [] := by
    intro ds h h'
    exact h (by simpa [Lit.chars] using h')
  rcases hn with rfl | rfl | rfl
  · simp only [lexRules, Nat.reduceSub, List.getElem?_cons_succ, List.getElem?_cons_zero,
      Option.some.injEq] at hr
    subst hr
    cases hm with
    | seq h1 h2 =>
      cases h2 with
      | seq h2 h3 =>
        cases h3 with
        | seq h3 h4 =>
          obtain ⟨ds, rfl⟩ := matches_digits h2
          obtain rfl := matches_chr (by decide) h3
          obtain ⟨es, he, rfl⟩ := matches_digits1 h4
          obtain ⟨neg, rfl⟩ := hs h1 (by simp) rfl
          refine ⟨⟨neg, ds, es⟩, by simp [he], ?_⟩
          simp [Lit.word, he]
  · simp only [lexRules, Nat.reduceSub, List.getElem?_cons_succ, List.getElem?_cons_zero,
      Option.some.injEq] at hr
    subst hr
    cases hm with
    | seq h1 h2 =>
      cases h2 with
      | seq h2 h3 =>
        obtain rfl := matches_chr (by decide) h3
        exact absurd (List.append_assoc _ _ _).symm (hp.2 _)
  · simp only [lexRules, Nat.reduceSub, List.getElem?_cons_succ, List.getElem?_cons_zero,
      Option.some.injEq] at hr
    subst hr
    cases hm with
    | seq h1 h2 =>
      obtain ⟨es, he, rfl⟩ := matches_digits1 h2
      obtain ⟨neg, rfl⟩ := hs h1 (hc he) rfl
      refine ⟨⟨neg, es, []⟩, by simp [he], ?_⟩
      simp [Lit.word]

theorem isAlpha_of {c : Char} (h : 97 ≤ c.toNat ∧ c.toNat ≤ 122 ∨ 65 ≤ c.toNat ∧ c.toNat ≤ 90) :
    c.isAlpha = true := by
  simp only [Char.isAlpha, Char.isUpper, Char.isLower, Bool.or_eq_true, Bool.and_eq_true,
    decide_eq_true_eq, UInt32.le_iff_toNat_le]
  change (65 ≤ c.toNat ∧ c.toNat ≤ 90) ∨ (97 ≤ c.toNat ∧ c.toNat ≤ 122)
  omega

theorem matches_tail {u : List Char}
    (h : (Re.star (.cls false [(65, 90), (97, 122), (48, 57), (95, 95)])).Matches u) :
    ∀ e ∈ u, e.isAlphanum = true ∨ e = '_' := by
  generalize hr : Re.star (.cls false [(65, 90), (97, 122), (48, 57), (95, 95)]) = r at h
  induction h with
  | starNil => simp
  | @starCons a u v h1 _ _ ih =>
    obtain rfl : Re.cls false [(65, 90), (97, 122), (48, 57), (95, 95)] = a := by simpa using hr
    cases h1 with
    | @cls _ _ c h =>
      simp only [Re.inCls, List.any_cons, List.any_nil, Bool.or_false, bne_iff_ne, ne_eq,
        Bool.not_eq_false, Bool.or_eq_true, Bool.and_eq_true, decide_eq_true_eq] at h
      intro e he
      rcases List.mem_cons.1 he with rfl | he
      · by_cases h95 : e.toNat = 95
        · exact .inr (Char.toNat_inj.1 h95)
        · left
          rw [Char.isAlphanum, Bool.or_eq_true]
          by_cases hd : 48 ≤ e.toNat ∧ e.toNat ≤ 57
          · right
            simp only [Char.isDigit, Bool.and_eq_true, decide_eq_true_eq, UInt32.le_iff_toNat_le]
            exact hd
          · exact .inl (isAlpha_of (by omega))
      · exact ih rfl e he
  | _ => simp at hr

/-- The words of identifiers. -/
theorem rule_ident {w : List Char} (h : RuleMatches 25 w) : IdentWord w := by
  obtain ⟨-, r, hr, hm⟩ := h
  simp only [lexRules, Nat.reduceSub, List.getElem?_cons_succ, List.getElem?_cons_zero,
    Option.some.injEq] at hr
  subst hr
  cases hm with
  | @seq _ _ u v h1 h2 =>
    cases h1 with
    | @cls _ _ c h =>
      simp only [Re.inCls, List.any_cons, List.any_nil, Bool.or_false, bne_iff_ne, ne_eq,
        Bool.not_eq_false, Bool.or_eq_true, Bool.and_eq_true, decide_eq_true_eq] at h
      exact ⟨c, v, rfl, isAlpha_of (by omega), matches_tail h2⟩

/-- The fixed texts and reserved words with their kinds. -/
def kindTable : List (List Char × ℕ) :=
  fixed.zip [Sym.DIAMOND, Sym.DIAMOND, Sym.BOX, Sym.BOX, Sym.LINT, Sym.RINT, Sym.LPAREN, Sym.RPAREN,
    Sym.IMPLIES, Sym.IMPLIES, Sym.LT, Sym.GT, Sym.LT, Sym.GT, Sym.NOT, Sym.COMMA, Sym.AND, Sym.OR,
    Sym.ASSIGN, Sym.PLUS, Sym.MINUS, Sym.MULT] ++ reserved.map fun p => (p.1.toList, p.2)

/-- The kinds of all other words. -/
def otherKinds : List ℕ :=
  [Sym.PHI_ID, Sym.PARAM_ID, Sym.SIGNAL_ID, Sym.STL_TEST_ID, Sym.NEW_ID, Sym.CONSTANT, Sym.STRING,
   Sym.COLON, Sym.EQUALS, Sym.LBRACE, Sym.RBRACE, Sym.EOF, Sym.undef]

theorem kind_table {d : Driver} {w : List Char} {t : Tok} (h : Word d w t) :
    (w, t.sym) ∈ kindTable ∨ t.sym ∈ otherKinds := by
  obtain ⟨n, hr, -, ht⟩ := h
  have fx : 3 ≤ n → n ≤ 24 → w = fixed.getD (n - 3) [] := fun h3 h24 => rule_fixed h3 h24 hr
  cases ht with
  | diamond h => rcases h with rfl | rfl <;> (rw [fx (by decide) (by decide)]; exact .inl (by decide))
  | box h => rcases h with rfl | rfl <;> (rw [fx (by decide) (by decide)]; exact .inl (by decide))
  | implies h => rcases h with rfl | rfl <;> (rw [fx (by decide) (by decide)]; exact .inl (by decide))
  | lt h => rcases h with rfl | rfl <;> (rw [fx (by decide) (by decide)]; exact .inl (by decide))
  | gt h => rcases h with rfl | rfl <;> (rw [fx (by decide) (by decide)]; exact .inl (by decide))
  | lint => rw [fx (by decide) (by decide)]; exact .inl (by decide)
  | rint => rw [fx (by decide) (by decide)]; exact .inl (by decide)
  | lparen => rw [fx (by decide) (by decide)]; exact .inl (by decide)
  | rparen => rw [fx (by decide) (by decide)]; exact .inl (by decide)
  | not => rw [fx (by decide) (by decide)]; exact .inl (by decide)
  | comma => rw [fx (by decide) (by decide)]; exact .inl (by decide)
  | and => rw [fx (by decide) (by decide)]; exact .inl (by decide)
  | or => rw [fx (by decide) (by decide)]; exact .inl (by decide)
  | assign => rw [fx (by decide) (by decide)]; exact .inl (by decide)
  | plus => rw [fx (by decide) (by decide)]; exact .inl (by decide)
  | minus => rw [fx (by decide) (by decide)]; exact .inl (by decide)
  | mult => rw [fx (by decide) (by decide)]; exact .inl (by decide)
  | @keyword u k hk =>
    refine .inl (List.mem_append_right _ (List.mem_map.2 ⟨_, hk, ?_⟩))
    simp
  | formula _ _ => exact .inr (by simp [otherKinds])
  | param _ _ _ => exact .inr (by simp [otherKinds])
  | signal _ _ _ _ => exact .inr (by simp [otherKinds])
  | test _ _ _ _ _ => exact .inr (by simp [otherKinds])
  | fresh _ _ _ _ _ => exact .inr (by simp [otherKinds])
  | constant _ => exact .inr (by simp [otherKinds])
  | string => exact .inr (by simp [otherKinds])
  | colon => exact .inr (by simp [otherKinds])
  | equals => exact .inr (by simp [otherKinds])
  | lbrace => exact .inr (by simp [otherKinds])
  | rbrace => exact .inr (by simp [otherKinds])
  | stop _ => exact .inr (by simp [otherKinds])
  | other _ _ _ => exact .inr (by simp [otherKinds])

/-- The word `w`, a plain one, is a token of kind `k`. -/
def Kind (d : Driver) (w : List Char) (k : ℕ) : Prop := Plain w ∧ ∃ t, Word d w t ∧ t.sym = k

theorem kind_words {d : Driver} {w : List Char} {k : ℕ} (h : Kind d w k) (hk : k ∉ otherKinds) :
    w ∈ (kindTable.filter fun p => p.2 == k).map (·.1) := by
  obtain ⟨-, t, h, rfl⟩ := h
  rcases kind_table h with h | h
  · exact List.mem_map.2 ⟨_, List.mem_filter.2 ⟨h, by simp⟩, rfl⟩
  · exact absurd h hk

theorem kind_key {d : Driver} {k : Key} {w : List Char} (h : Kind d w (keySym k)) : k.Is w := by
  have h1 := kind_words h (by cases k <;> decide)
  have key : ∀ (k : Key) (w' : List Char), w' ∈ (kindTable.filter fun p => p.2 == keySym k).map (·.1) →
      ∃ s ∈ k.spell, w' = s.toList := by
    intro k
    cases k <;> decide +kernel
  exact key k w h1

theorem kind_one {d : Driver} {k : ℕ} {w v : List Char} (h : Kind d w k)
    (hk : k ∉ otherKinds ∧ (kindTable.filter fun p => p.2 == k).map (·.1) = [v]) : w = v := by
  have := kind_words h hk.1
  rw [hk.2] at this
  simpa using this

theorem name_of {u : List Char} (h : RuleMatches 25 u) (hr : ∀ k, (String.ofList u, k) ∉ reserved) :
    Name (String.ofList u) := by
  refine ⟨by rw [String.toList_ofList]; exact rule_ident h, fun hm => ?_⟩
  have : reserved.map (·.1) = ["F", "F_", "ev", "ev_", "G", "G_", "alw", "alw_", "U", "U_", "until",
    "until_", "and", "or", "not", "true", "false", "t", "abs", "param", "test", "signal"] := rfl
  rw [← this] at hm
  obtain ⟨⟨s, k⟩, hm, he⟩ := List.mem_map.1 hm
  simp only at he
  subst he
  exact hr k hm

/-- What the words of names and numbers say. -/
theorem kind_other {d : Driver} {w : List Char} {k : ℕ} (h : Kind d w k) :
    (k = Sym.PHI_ID → ∃ s, w = s.toList ∧ Name s ∧ ∃ T, d.formulas.lookup s = some T) ∧
    (k = Sym.PARAM_ID → ∃ p, w = p.toList ∧ NumOk d (.par p)) ∧
    (k = Sym.SIGNAL_ID → ∃ x, w = x.toList ∧ Name x ∧ d.formulas.lookup x = none ∧
      d.params.lookup x = none ∧ ∃ i, d.smap.lookup x = some i) ∧
    (k = Sym.CONSTANT → ∃ l, w = Lit.word l ∧ NumOk d (.lit l)) := by
  obtain ⟨hp, t, ⟨n, hr, -, ht⟩, rfl⟩ := h
  cases ht with
  | keyword hk =>
    have key : (reserved.all fun p => p.2 != Sym.PHI_ID && p.2 != Sym.PARAM_ID && p.2 != Sym.SIGNAL_ID &&
      p.2 != Sym.CONSTANT) = true := by decide +kernel
    have := List.all_eq_true.1 key _ hk
    simp only [Bool.and_eq_true, bne_iff_ne] at this
    exact ⟨fun h => absurd h this.1.1.1, fun h => absurd h this.1.1.2, fun h => absurd h this.1.2,
      fun h => absurd h this.2⟩
  | @formula u T h1 h2 =>
    exact ⟨fun _ => ⟨_, (String.toList_ofList).symm, name_of hr h1, T, h2⟩, by simp, by simp, by simp⟩
  | @param u x h1 h2 h3 =>
    exact ⟨by simp, fun _ => ⟨_, (String.toList_ofList).symm, name_of hr h1, h2, x, h3⟩, by simp, by simp⟩
  | @signal u i h1 h2 h3 h4 =>
    exact ⟨by simp, by simp, fun _ => ⟨_, (String.toList_ofList).symm, name_of hr h1, h2, h3, i, h4⟩, by simp⟩
  | @constant n u hn =>
    obtain ⟨l, hl, hw⟩ := rule_lit' hn hr hp
    exact ⟨by simp, by simp, by simp, fun _ => ⟨l, hw, hl⟩⟩
  | _ => exact ⟨by simp, by simp, by simp, by simp⟩

end Parse
end STLRom
