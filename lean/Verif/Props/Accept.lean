import Verif.Proofs.Derived

/-!
# C66: which texts are accepted

`parse_string` returns `true` only for texts whose tokens derive from the grammar of
`stl_parser.ypp`.  A text `name := ...` that is one definition is accepted exactly when what
follows `:=` is read as a formula by `Spec.Grammar`, with names the driver knows.
-/

namespace STLRom
namespace Props
open Scan Text Parse Spec

/-- The tokens of an accepted text, up to the end, derive from `start`.  Each token is read with
a driver that has kept the names known before the parse. -/
theorem C66_tokens {d d' : Driver} {text : List Char} (h : Parses d text true d') :
    ∃ ks rest, Tokens (Kept d) text (ks ++ [Sym.EOF]) rest ∧ Derives (.n .start) ks := by
  obtain ⟨n, h⟩ := h
  obtain ⟨ks, r, h1, h2, -⟩ := run_shifted n (inv_start d text) (shifted_start d text) h
  exact ⟨ks, r, h1, h2⟩

/-- A text is accepted only if it begins with `signal`, `param`, `test`, or a name that is not
known and `:=`.  So a formula cannot be defined again. -/
theorem C66_first {d d' : Driver} {text : List Char} (h : Parses d text true d') :
    ∃ t rest, Lexes d text t rest ∧ t.sym ∈ [Sym.SIGNAL_DECL, Sym.PARAM_DECL, Sym.TEST, Sym.NEW_ID] := by
  obtain ⟨n, h⟩ := h
  obtain ⟨ks, r, h1, h2, t, r', v, h3, h4⟩ := run_shifted n (inv_start d text) (shifted_start d text) h
  obtain ⟨k, v', rfl, h5⟩ := start_first _ le_rfl h2
  refine ⟨t, r', h3, ?_⟩
  rw [← (List.cons.inj h4).1]
  rcases h5 with h5 | ⟨rfl, -⟩
  · fin_cases h5 <;> decide
  · decide

/-- `w` is one token, and not one that ends the text. -/
def IsToken (w : List Char) : Prop := ∃ t, Word Driver.init w t ∧ t.sym ≠ Sym.EOF

/-- The words after `name :=` in what is meant as one definition: tokens, no other statement, and
no numbers like `+1` and `1.` (`Spec.Lit` does not have these). -/
structure DefWord (w : List Char) : Prop where
  token : IsToken w
  plain : (∀ u, w = '+' :: u → u = []) ∧ ∀ u, w ≠ u ++ ['.']
  single : w ∉ [":=".toList, "param".toList, "signal".toList, "test".toList]

theorem token_any {w : List Char} (h : IsToken w) (d : Driver) : ∃ t, Word d w t ∧ t.sym ≠ Sym.EOF := by
  obtain ⟨t, ⟨n, hr, hm, ht⟩, hs⟩ := h
  suffices ∃ t', TokenOf d n w t' ∧ t'.sym ≠ Sym.EOF by
    obtain ⟨t', h1, h2⟩ := this
    exact ⟨t', ⟨n, hr, hm, h1⟩, h2⟩
  have ident : ∃ t', TokenOf d 25 w t' ∧ t'.sym ≠ Sym.EOF := by
    refine ⟨_, tokenOf_ident d w, ?_⟩
    unfold identTok
    split
    · rename_i k hk
      have key : (reserved.all fun p => p.2 != 0) = true := by decide +kernel
      have := List.all_eq_true.1 key _ (reserved_lookup.1 hk)
      simpa using this
    · split_ifs <;> simp
  cases ht with
  | diamond h => exact ⟨_, .diamond h, by simp⟩
  | box h => exact ⟨_, .box h, by simp⟩
  | lint => exact ⟨_, .lint, by simp⟩
  | rint => exact ⟨_, .rint, by simp⟩
  | lparen => exact ⟨_, .lparen, by simp⟩
  | rparen => exact ⟨_, .rparen, by simp⟩
  | implies h => exact ⟨_, .implies h, by simp⟩
  | lt h => exact ⟨_, .lt h, by simp⟩
  | gt h => exact ⟨_, .gt h, by simp⟩
  | not => exact ⟨_, .not, by simp⟩
  | comma => exact ⟨_, .comma, by simp⟩
  | and => exact ⟨_, .and, by simp⟩
  | or => exact ⟨_, .or, by simp⟩
  | assign => exact ⟨_, .assign, by simp⟩
  | plus => exact ⟨_, .plus, by simp⟩
  | minus => exact ⟨_, .minus, by simp⟩
  | mult => exact ⟨_, .mult, by simp⟩
  | keyword _ => exact ident
  | formula _ _ => exact ident
  | param _ _ _ => exact ident
  | signal _ _ _ _ => exact ident
  | test _ _ _ _ _ => exact ident
  | fresh _ _ _ _ _ => exact ident
  | constant h => exact ⟨_, .constant h, by simp⟩
  | string => exact ⟨_, .string, by simp⟩
  | colon => exact ⟨_, .colon, by simp⟩
  | equals => exact ⟨_, .equals, by simp⟩
  | lbrace => exact ⟨_, .lbrace, by simp⟩
  | rbrace => exact ⟨_, .rbrace, by simp⟩
  | stop hc => simp at hs
  | other h1 h2 h3 => exact ⟨_, .other h1 h2 h3, by simp⟩

/-- The kinds read from a spelled text are those of its words. -/
theorem spelled_tokens {D : Driver → Prop} {W : List (List Char)} {text : List Char} (hW : Spelled W text) :
    (∀ w ∈ W, IsToken w) → ∀ {v : List ℕ} {r}, Tokens D text (v ++ [Sym.EOF]) r → Sym.EOF ∉ v →
    List.Forall₂ (fun w k => ∃ e t, D e ∧ Word e w t ∧ t.sym = k) W v := by
  induction hW with
  | @nil g hg =>
    intro _ v r ht hv
    cases v with
    | nil => exact .nil
    | cons k v =>
      exfalso
      cases ht with
      | cons h1 h2 h3 =>
        have := C42_lex_unique h2
        rw [lex_gap_end hg] at this
        simp only [Prod.mk.injEq] at this
        rw [← this.1] at hv
        exact hv (by simp)
  | @cons g w ws text hg hs _ ih =>
    intro hw v r ht hv
    cases v with
    | nil =>
      exfalso
      generalize he : ([] : List ℕ) ++ [Sym.EOF] = l at ht
      cases ht with
      | nil => simp at he
      | @cons e _ tok _ _ _ h1 h2 h3 =>
        obtain ⟨t, hW, ht⟩ := token_any (hw w (by simp)) e
        have := C42_lex_unique h2
        rw [lex_word hg hW hs] at this
        simp only [Prod.mk.injEq] at this
        simp only [List.nil_append, List.cons.injEq] at he
        rw [this.1] at ht
        exact ht he.1.symm
    | cons k v =>
      generalize he : (k :: v) ++ [Sym.EOF] = l at ht
      cases ht with
      | nil => simp at he
      | @cons e _ tok mid ks rest h1 h2 h3 =>
        simp only [List.cons_append, List.cons.injEq] at he
        obtain ⟨rfl, rfl⟩ := he
        obtain ⟨t, hW, ht⟩ := token_any (hw w (by simp)) e
        have := C42_lex_unique h2
        rw [lex_word hg hW hs] at this
        simp only [Prod.mk.injEq] at this
        obtain ⟨rfl, rfl⟩ := this
        exact .cons ⟨e, t, h1, hW, rfl⟩ (ih (fun w hw' => hw w (by simp [hw'])) h3
          (fun h => hv (by simp [h])))

theorem isToken_name {s : String} (h : Name s) : IsToken s.toList := by
  have := word_ident Driver.init (name_ident h)
  refine ⟨_, this, ?_⟩
  unfold identTok
  split
  · rename_i k hk
    have key : (reserved.all fun p => p.2 != 0) = true := by decide +kernel
    have := List.all_eq_true.1 key _ (reserved_lookup.1 hk)
    simpa using this
  · split_ifs <;> simp

/-- No word of one definition is of another kind of statement. -/
theorem defWord_kind {w : List Char} (h : DefWord w) {e : Driver} {t : Tok} (ht : Word e w t) :
    t.sym ∉ [19, 24, 25, 26] := by
  have hk : Kind e w t.sym := ⟨h.plain, t, ht, rfl⟩
  intro hm
  generalize t.sym = k at hm hk
  refine h.single ?_
  simp only [List.mem_cons, List.not_mem_nil, or_false] at hm ⊢
  rcases hm with rfl | rfl | rfl | rfl
  · exact .inl (kind_one hk (by decide +kernel))
  · have := kind_one (v := "param".toList) hk (by decide +kernel)
    simp [this]
  · have := kind_one (v := "signal".toList) hk (by decide +kernel)
    simp [this]
  · have := kind_one (v := "test".toList) hk (by decide +kernel)
    simp [this]

/-- The drivers made by parses number signals from 1. -/
theorem built_signals {d : Driver} (h : Built d) : ∀ x i, d.smap.lookup x = some i → i ≠ 0 := by
  obtain ⟨names, hn, -⟩ := C43_history h
  intro x i hx
  rw [hn, List.lookup_eq_some_iff] at hx
  obtain ⟨l1, l2, hx, -⟩ := hx
  have : (x, i) ∈ numbered names := by rw [hx]; simp
  have := (mem_numbered.1 this).1
  omega

/-- `name := ws` is accepted exactly when `ws` is read as a formula with known names; signals are
numbered from 1 in the driver, as `signal` statements do (C43). -/
theorem C66_definition {d : Driver} {s : String} {ws : List (List Char)} {text : List Char}
    (hs : Spec.Fresh d s) (hz : ∀ x i, d.smap.lookup x = some i → i ≠ 0) (hw : ∀ w ∈ ws, DefWord w)
    (ht : Spelled (s.toList :: ":=".toList :: ws) text) :
    (∃ d', Parses d text true d') ↔ ∃ f, ReadsF .all f ws ∧ FOk d f := by
  constructor
  · rintro ⟨d', n, h⟩
    have hnew : ∀ t r, Lexes d text t r → t.sym = 33 := by
      intro t r hL
      have := C42_lex_unique hL
      cases ht with
      | cons hg hst _ =>
        rw [lex_word hg (word_fresh hs) hst] at this
        rw [← (Prod.mk.inj this).1]
    obtain ⟨w, v, a, z, r, r', h1, h2, h3, h4, h5, h6⟩ := run_firstDef hnew n (ks := [])
      (inv_start d text) (kept_refl d) (.base _)
      (.during rfl (.nil _) (.first rfl (.inl ⟨rfl, rfl⟩))) (by rintro v rest h; simp [start] at h) h
    have hW : ∀ u ∈ s.toList :: ":=".toList :: ws, IsToken u := by
      intro u hu
      simp only [List.mem_cons] at hu
      rcases hu with rfl | rfl | hu
      · exact isToken_name hs.toName
      · exact ⟨_, word_assign _, by simp⟩
      · exact (hw u hu).token
    have h7 := spelled_tokens ht hW h6 (derives_noEOF h2)
    obtain ⟨w', rfl, hw'⟩ := derives_assign h1
    rcases List.eq_nil_or_concat z with rfl | ⟨z', b, rfl⟩
    · obtain ⟨rfl, h8⟩ := List.append_inj' h5 rfl
      obtain rfl : a = 0 := by simpa using h8.symm
      have h9 := spelled_tokens ht hW h4 (derives_noEOF h2)
      rcases h9 with _ | ⟨-, h9⟩
      rcases h9 with _ | ⟨-, h9⟩
      refine Flat.all (reads_of hz hw' ?_)
      clear h5 h6 h7 ht h2 h4 h8 h1 hW hw'
      induction h9 with
      | nil => exact .nil
      | cons h9 _ ih =>
        obtain ⟨e, t, rfl, h10, h11⟩ := h9
        exact .cons ⟨(hw _ (by simp)).plain, t, h10, h11⟩ (ih fun w h => hw w (by simp [h]))
    · exfalso
      obtain ⟨rfl, -⟩ := List.append_inj' (t₁ := [0]) (t₂ := [b]) (s₂ := 33 :: 19 :: w' ++ a :: z')
        (by simpa using h5) rfl
      rcases h7 with _ | ⟨-, h7⟩
      rcases h7 with _ | ⟨-, h7⟩
      have h8 : ∀ k ∈ w' ++ a :: z', k ∉ [19, 24, 25, 26] := by
        clear h5 h6 ht h2 h4 h1 hW hw' h3
        have h7' : ∃ l, l = w' ++ a :: z' ∧ List.Forall₂ (fun w k => ∃ e t, Kept d e ∧ Word e w t ∧
            t.sym = k) ws l := ⟨_, rfl, h7⟩
        clear h7
        obtain ⟨l, hl, h7'⟩ := h7'
        rw [← hl]
        clear hl
        induction h7' with
        | nil => simp
        | cons h9 _ ih =>
          obtain ⟨e, t, -, h10, rfl⟩ := h9
          intro k hk
          rcases List.mem_cons.1 hk with rfl | hk
          · exact defWord_kind (hw _ (by simp)) h10
          · exact ih (fun w h => hw w (by simp [h])) k hk
      obtain ⟨u, hu, hd⟩ := derives_assign (start_single h2 h8)
      simp only [List.cons.injEq, true_and] at hu
      have := formula_tokens hd a (by rw [← hu]; simp)
      fin_cases h3 <;> simp at this
  · rintro ⟨f, hr, hf⟩
    exact ⟨_, C41_grammar hs hf hr ht⟩

/-- What the parse of `name := ws` does: the name stands for the formula that is read, or the text is
rejected and nothing can be read. -/
theorem C66_outcome {d d' : Driver} {b : Bool} {s : String} {ws : List (List Char)} {text : List Char}
    (hs : Spec.Fresh d s) (hz : ∀ x i, d.smap.lookup x = some i → i ≠ 0) (hw : ∀ w ∈ ws, DefWord w)
    (ht : Spelled (s.toList :: ":=".toList :: ws) text) (h : Parses d text b d') :
    (b = true ∧ ∃ f, ReadsF .all f ws ∧ FOk d f ∧ d' = defined d s f) ∨
    (b = false ∧ ∀ f, ReadsF .all f ws → ¬ FOk d f) := by
  obtain ⟨b0, d0, -, hu⟩ := C60_total d text
  cases b with
  | true =>
    obtain ⟨f, hr, hf⟩ := (C66_definition hs hz hw ht).1 ⟨d', h⟩
    exact .inl ⟨rfl, f, hr, hf, (hu _ _ h).2.trans (hu _ _ (C41_grammar hs hf hr ht)).2.symm⟩
  | false =>
    refine .inr ⟨rfl, fun f hr hf => ?_⟩
    have := (hu _ _ h).1.trans (hu _ _ (C41_grammar hs hf hr ht)).1.symm
    simp at this

/-! ## Examples -/

/-- A driver with two signals. -/
def drv66 : Driver := { Driver.init with smap := [("x", 1), ("y", 2)] }

/-- The words of the examples. -/
def vocab66 : List (List Char) :=
  ["x", "y", "[", "t", "]", "+", "abs", "(", ")", ">", "0", "not", "and"].map (·.toList)

theorem vocab66_ok : ∀ w ∈ vocab66, DefWord w := by
  intro w hw
  have key : ∀ w ∈ vocab66, ((w.head? ≠ some '+' ∨ w = ['+']) ∧ w.getLast? ≠ some '.') ∧
      w ∉ [":=".toList, "param".toList, "signal".toList, "test".toList] := by decide +kernel
  obtain ⟨⟨h1, h2⟩, h3⟩ := key w hw
  refine ⟨?_, ⟨?_, ?_⟩, h3⟩
  · have hx : Name "x" := ⟨⟨'x', [], rfl, by decide, by simp⟩, by decide⟩
    have hy : Name "y" := ⟨⟨'y', [], rfl, by decide, by simp⟩, by decide⟩
    simp only [vocab66, List.map_cons, List.map_nil, List.mem_cons, List.not_mem_nil, or_false] at hw
    rcases hw with rfl | rfl | rfl | rfl | rfl | rfl | rfl | rfl | rfl | rfl | rfl | rfl | rfl
    · exact isToken_name hx
    · exact isToken_name hy
    · exact ⟨_, word_lint _, by simp⟩
    · exact ⟨_, word_reserved _ (s := "t") (k := Sym.TIME) (by decide), by simp⟩
    · exact ⟨_, word_rint _, by simp⟩
    · exact ⟨_, word_plus _, by simp⟩
    · exact ⟨_, word_reserved _ (s := "abs") (k := Sym.ABS) (by decide), by simp⟩
    · exact ⟨_, word_lparen _, by simp⟩
    · exact ⟨_, word_rparen _, by simp⟩
    · exact ⟨_, word_gt _, by simp⟩
    · exact ⟨_, word_lit _ ⟨false, [0], []⟩ (by simp), by simp⟩
    · exact ⟨_, word_reserved _ (s := "not") (k := Sym.NOT) (by decide), by simp⟩
    · exact ⟨_, word_reserved _ (s := "and") (k := Sym.AND) (by decide), by simp⟩
  · rintro u rfl
    simpa using h1
  · rintro u rfl
    simp at h2

theorem fresh66 : Spec.Fresh drv66 "r" :=
  ⟨⟨⟨'r', [], rfl, by decide, by simp⟩, by decide⟩, rfl, rfl, rfl, rfl⟩

/-- `ws` after `r :=`, with blanks. -/
def text66 (ws : List (List Char)) : List Char := blanked ("r".toList :: ":=".toList :: ws)

theorem spelled66 {ws : List (List Char)} (h : ∀ w ∈ ws, w ∈ vocab66) :
    Spelled ("r".toList :: ":=".toList :: ws) (text66 ws) := by
  have hW : ∀ u ∈ "r".toList :: ":=".toList :: ws, IsToken u := by
    intro u hu
    simp only [List.mem_cons] at hu
    rcases hu with rfl | rfl | hu
    · exact isToken_name fresh66.toName
    · exact ⟨_, word_assign _, by simp⟩
    · exact (vocab66_ok u (h u hu)).token
  have hp : ∀ u ∈ "r".toList :: ":=".toList :: ws, u ≠ ['"'] ∧ u ≠ ['#'] := by
    have key : ∀ u ∈ "r".toList :: ":=".toList :: vocab66, u ≠ ['"'] ∧ u ≠ ['#'] := by decide +kernel
    intro u hu
    refine key u ?_
    simp only [List.mem_cons] at hu ⊢
    rcases hu with rfl | rfl | hu
    · exact .inl rfl
    · exact .inr (.inl rfl)
    · exact .inr (.inr (h u hu))
  obtain ⟨ts, hts⟩ : ∃ ts, List.Forall₂ (Word Driver.init) ("r".toList :: ":=".toList :: ws) ts := by
    clear hp
    generalize "r".toList :: ":=".toList :: ws = W at hW
    induction W with
    | nil => exact ⟨[], .nil⟩
    | cons w W ih =>
      obtain ⟨ts, ih⟩ := ih fun u hu => hW u (by simp [hu])
      obtain ⟨t, ht, -⟩ := hW w (by simp)
      exact ⟨t :: ts, .cons ht ih⟩
  exact spelled_blanked hts hp

/-- `x[t] + abs(y[t]) > 0` and `abs(y[t]) + x[t] > 0` -/
def absRight : List (List Char) :=
  ["x", "[", "t", "]", "+", "abs", "(", "y", "[", "t", "]", ")", ">", "0"].map (·.toList)
@[inherit_doc absRight] def absLeft : List (List Char) :=
  ["abs", "(", "y", "[", "t", "]", ")", "+", "x", "[", "t", "]", ">", "0"].map (·.toList)

/-- The operands of `+` cannot be exchanged: `abs` is only allowed on the left, so that
`x[t] + abs(y[t]) > 0` is rejected. -/
theorem C66_abs_false : (∃ d', Parses drv66 (text66 absLeft) true d') ∧
    ¬ ∃ d', Parses drv66 (text66 absRight) true d' := by
  have h1 : (parsed drv66 (text66 absLeft)).1 = true := by decide +kernel
  have h2 : (parsed drv66 (text66 absRight)).1 = false := by decide +kernel
  refine ⟨⟨_, h1 ▸ parsed_spec drv66 (text66 absLeft)⟩, ?_⟩
  rintro ⟨d', h⟩
  obtain ⟨b, d0, -, hu⟩ := C60_total drv66 (text66 absRight)
  have := (hu _ _ h).1.trans (hu _ _ (h2 ▸ parsed_spec drv66 (text66 absRight))).1.symm
  simp at this

theorem smap66 : ∀ x i, drv66.smap.lookup x = some i → i ≠ 0 := by
  intro x i h
  simp only [drv66, List.lookup] at h
  split at h
  · simp at h; omega
  · split at h <;> simp at h; omega

/-- The hypotheses are met by an accepted and by a rejected text. -/
example : (∃ f, ReadsF .all f absLeft ∧ FOk drv66 f) ∧ ¬ ∃ f, ReadsF .all f absRight ∧ FOk drv66 f :=
  ⟨(C66_definition fresh66 smap66 (fun w h => vocab66_ok w ((by decide +kernel : ∀ w ∈ absLeft, w ∈ vocab66) w h))
      (spelled66 (by decide +kernel))).1 C66_abs_false.1,
    fun h => C66_abs_false.2 ((C66_definition fresh66 smap66
      (fun w h => vocab66_ok w ((by decide +kernel : ∀ w ∈ absRight, w ∈ vocab66) w h))
      (spelled66 (by decide +kernel))).2 h)⟩

end Props
end STLRom
