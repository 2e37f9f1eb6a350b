import Verif.Proofs.Literal
import Verif.Spec.Program

/-!
# The parser's moves on expressions and formulas
-/

namespace STLRom
namespace Props
open Scan Text Parse Spec

theorem name_ident {s : String} (h : Name s) : IdentWord s.toList := h.ident

theorem name_reserved {s : String} (h : Name s) : reserved.lookup s = none := by
  rw [List.lookup_eq_none_iff]
  intro p hp
  rw [bne_iff_ne]
  rintro rfl
  refine h.word ?_
  have : reserved.map (·.1) = ["F", "F_", "ev", "ev_", "G", "G_", "alw", "alw_", "U", "U_", "until",
    "until_", "and", "or", "not", "true", "false", "t", "abs", "param", "test", "signal"] := rfl
  rw [← this]
  exact List.mem_map_of_mem hp

/-! ## Words -/

/-- The symbol of an operator. -/
def keySym : Key → ℕ
  | .ev => Sym.DIAMOND
  | .alw => Sym.BOX
  | .untl => Sym.UNTIL
  | .and => Sym.AND
  | .or => Sym.OR
  | .implies => Sym.IMPLIES
  | .not => Sym.NOT
  | .less => Sym.LT
  | .greater => Sym.GT

theorem word_key (d : Driver) {k : Key} {w : List Char} (h : k.Is w) : Word d w ⟨keySym k, none⟩ := by
  obtain ⟨s, hs, rfl⟩ := h
  cases k <;> simp only [Key.spell, List.mem_cons, List.not_mem_nil, or_false] at hs
  · rcases hs with rfl | rfl | rfl | rfl | rfl | rfl
    iterate 4 exact word_reserved d (by decide)
    · exact word_sym d (n := 3) (by decide +kernel) (.diamond (by decide))
    · exact word_sym d (n := 4) (by decide +kernel) (.diamond (by decide))
  · rcases hs with rfl | rfl | rfl | rfl | rfl | rfl
    iterate 4 exact word_reserved d (by decide)
    · exact word_sym d (n := 5) (by decide +kernel) (.box (by decide))
    · exact word_sym d (n := 6) (by decide +kernel) (.box (by decide))
  · rcases hs with rfl | rfl | rfl | rfl <;> exact word_reserved d (by decide)
  · rcases hs with rfl | rfl
    · exact word_reserved d (by decide)
    · exact word_sym d (n := 19) (by decide +kernel) .and
  · rcases hs with rfl | rfl
    · exact word_reserved d (by decide)
    · exact word_sym d (n := 20) (by decide +kernel) .or
  · rcases hs with rfl | rfl
    · exact word_implies d
    · exact word_sym d (n := 12) (by decide +kernel) (.implies (by decide))
  · rcases hs with rfl | rfl
    · exact word_reserved d (by decide)
    · exact word_sym d (n := 17) (by decide +kernel) .not
  · rcases hs with rfl | rfl
    · exact word_lt d
    · exact word_sym d (n := 15) (by decide +kernel) (.lt (by decide))
  · rcases hs with rfl | rfl
    · exact word_gt d
    · exact word_sym d (n := 16) (by decide +kernel) (.gt (by decide))

theorem word_num {d : Driver} {n : Num} (h : NumOk d n) : ∃ k s, (k = 30 ∨ k = 31) ∧
    Word d n.word ⟨k, some s⟩ ∧ mkConst s = .const .init n.name n.value none ∧
    sToDVal s = n.value ∧ (if (sToD s).isSome then "" else s) = n.name := by
  cases n with
  | lit l =>
    obtain ⟨h1, h2⟩ := sToD_lit l h
    refine ⟨30, String.ofList l.word, .inl rfl, word_lit d l h, ?_, h2, ?_⟩
    · unfold mkConst; rw [h1, h2]; rfl
    · rw [h1]; rfl
  | par p =>
    obtain ⟨hn, hf, x, hx⟩ := h
    have hi := name_ident hn
    have hr := name_reserved hn
    obtain ⟨h1, h2⟩ := sToD_ident hi
    refine ⟨31, p, .inr rfl, ?_, ?_, h2, ?_⟩
    · have := word_ident d hi
      rw [String.ofList_toList] at this
      have ht : identTok d p = ⟨31, some p⟩ := by
        unfold identTok
        rw [hr, hf, hx]
        rfl
      rwa [ht] at this
    · unfold mkConst; rw [h1, h2]; rfl
    · rw [h1]; rfl

/-! ## Moves -/

/-- The states before a signal expression. -/
def exprCtx : List ℕ := [20, 31, 32, 62, 63, 72, 73, 74, 99, 104, 64, 71, 89]

/-- The states before a right operand of an arithmetic operator, and the states after it. -/
def atomCtx : List (ℕ × ℕ) := (66, 92) :: (67, 93) :: (68, 94) :: exprCtx.map fun s => (s, 42)

theorem expr_ctx : ∀ s ∈ exprCtx, s ≠ 22 ∧ (s, 42) ∈ atomCtx ∧ shiftTo s 23 = some 35 ∧
    goto s 45 = 42 ∧ goto s 46 = 43 ∧ goto s 47 = 44 ∧ goto s 48 = 45 := by
  decide +kernel

theorem atom_ctx : ∀ p ∈ atomCtx, p.1 ≠ 22 ∧ (shiftTo p.1 5 = some 31 ∨ shiftTo p.1 5 = some 89) ∧
    shiftTo p.1 34 = some 39 ∧ shiftTo p.1 30 = some 36 ∧ shiftTo p.1 31 = some 37 ∧
    goto p.1 43 = 40 ∧ goto p.1 44 = 41 ∧ goto p.1 45 = p.2 := by
  decide +kernel

/-- Shift from the known state. -/
local macro "sh " a:num s:num : tactic =>
  `(tactic| refine .head (.shift (s' := $s) (a := $a) (by decide) rfl (by decide +kernel) (by decide)) ?_)

/-- Reduce whatever follows. -/
local macro "rc " r:num g:term:max h:term:max : tactic =>
  `(tactic| refine .head (.reduceC (r := $r) (g := $g) (by decide) (by decide +kernel) rfl (by decide)
    $h rfl rfl) ?_)

/-- Reduce before a symbol that cannot be shifted. -/
local macro "rd " a:num r:num g:num : tactic =>
  `(tactic| refine .head (.reduce (a := $a) (r := $r) (g := $g) (by decide) rfl (by decide +kernel) rfl
    (by decide) (by decide +kernel) rfl rfl) ?_)

theorem moves_expr {d : Driver} {b : Bool} {e : SExp} {ws : List (List Char)} (h : ReadsS b e ws)
    (hok : SOk d e) : ∃ ts, List.Forall₂ (Word d) ws ts ∧
    (b = true → ∀ s g, (s, g) ∈ atomCtx → ∀ v st rest,
      Moves d ((s, v) :: st, ts ++ rest) ((g, .tr (e.tree d.smap)) :: (s, v) :: st, rest)) ∧
    (b = false → ∀ s ∈ exprCtx, ∀ v st rest,
      Moves d ((s, v) :: st, ts ++ rest) ((45, .tr (e.tree d.smap)) :: (s, v) :: st, rest)) := by
  induction h with
  | num n =>
    obtain ⟨k, str, hk, hw, hc, _⟩ := word_num hok
    refine ⟨[⟨k, some str⟩], .cons hw .nil, fun _ s g hs v st rest => ?_, by simp⟩
    obtain ⟨h22, _, _, h30, h31, h43, _, h45⟩ := atom_ctx _ hs
    simp only at *
    change Moves d (_, ⟨k, some str⟩ :: rest) _
    rw [show SExp.tree d.smap (.num n) = mkConst str from hc.symm]
    rcases hk with rfl | rfl
    · refine .head (.shift h22 rfl h30 (by decide)) ?_
      rc 4 40 h43
      rc 8 g h45
      exact .refl
    · refine .head (.shift h22 rfl h31 (by decide)) ?_
      rc 5 40 h43
      rc 8 g h45
      exact .refl
  | sig x =>
    obtain ⟨hn, hf, hp, i, hx⟩ := hok
    have hi := name_ident hn
    have hr := name_reserved hn
    have ht : identTok d x = ⟨34, some x⟩ := by
      unfold identTok
      rw [hr, hf, hp, hx]
      rfl
    have hw := word_ident d hi
    rw [String.ofList_toList, ht] at hw
    refine ⟨[⟨34, some x⟩, ⟨3, none⟩, ⟨16, none⟩, ⟨4, none⟩],
      .cons hw (.cons (word_lint d) (.cons (word_reserved d (s := "t") (by decide)) (.cons (word_rint d) .nil))),
      fun _ s g hs v st rest => ?_, by simp⟩
    obtain ⟨h22, _, h34, _, _, _, h44, h45⟩ := atom_ctx _ hs
    simp only at *
    change Moves d (_, ⟨34, some x⟩ :: ⟨3, none⟩ :: ⟨16, none⟩ :: ⟨4, none⟩ :: rest) _
    refine .head (.shift h22 rfl h34 (by decide)) ?_
    sh 3 65
    sh 16 91
    sh 4 110
    refine .head (.reduceC (r := 6) (g := 41) (u := .tr (.sig .init x d.smap none)) (by decide)
      (by decide +kernel) rfl (by decide) h44 rfl ?_) ?_
    · change act d 6 [.str x, _, _, _] = _
      rw [act_6, hx]
    rc 7 g h45
    exact .refl
  | @paren e ws _ ih =>
    obtain ⟨ts, hf, _, hm⟩ := ih hok
    refine ⟨⟨5, none⟩ :: (ts ++ [⟨6, none⟩]), .cons (word_lparen d) (List.rel_append hf (.cons (show Word d [')'] ⟨6, none⟩ from word_rparen d) .nil)),
      fun _ s g hs v st rest => ?_, by simp⟩
    obtain ⟨h22, h5, _, _, _, _, _, h45⟩ := atom_ctx _ hs
    simp only at h22 h5 h45
    rw [List.cons_append, List.append_assoc, List.singleton_append]
    rcases h5 with h5 | h5
    · refine .head (.shift h22 rfl h5 (by decide)) ?_
      refine .trans (hm rfl 31 (by decide) _ _ _) ?_
      rd 6 17 58
      sh 6 82
      rc 9 g h45
      exact .refl
    · refine .head (.shift h22 rfl h5 (by decide)) ?_
      refine .trans (hm rfl 89 (by decide) _ _ _) ?_
      rd 6 17 108
      sh 6 82
      rc 9 g h45
      exact .refl
  | @single e ws _ ih =>
    obtain ⟨ts, hf, hm, _⟩ := ih hok
    refine ⟨ts, hf, by simp, fun _ s hs v st rest => ?_⟩
    obtain ⟨h22, ha, _, h45, h46, h47, h48⟩ := expr_ctx s hs
    refine .trans (hm rfl s 42 ha _ _ _) ?_
    rc 10 43 h46
    rc 12 44 h47
    rc 14 45 h48
    exact .refl
  | @abs e ws _ ih =>
    obtain ⟨ts, hf, _, hm⟩ := ih hok
    refine ⟨⟨23, none⟩ :: ⟨5, none⟩ :: (ts ++ [⟨6, none⟩]),
      .cons (word_reserved d (s := "abs") (by decide)) (.cons (word_lparen d)
        (List.rel_append hf (.cons (show Word d [')'] ⟨6, none⟩ from word_rparen d) .nil))), by simp, fun _ s hs v st rest => ?_⟩
    obtain ⟨h22, _, h23, h45, h46, h47, h48⟩ := expr_ctx s hs
    rw [List.cons_append, List.cons_append, List.append_assoc, List.singleton_append]
    refine .head (.shift h22 rfl h23 (by decide)) ?_
    sh 5 64
    refine .trans (hm rfl 64 (by decide) _ _ _) ?_
    rd 6 17 90
    sh 6 109
    rc 11 43 h46
    rc 12 44 h47
    rc 14 45 h48
    exact .refl
  | @add a b u v _ _ ih1 ih2 =>
    obtain ⟨t1, f1, _, m1⟩ := ih1 hok.1
    obtain ⟨t2, f2, m2, _⟩ := ih2 hok.2
    refine ⟨t1 ++ ⟨20, none⟩ :: t2, List.rel_append f1 (.cons (word_plus d) f2), by simp,
      fun _ s hs v st rest => ?_⟩
    obtain ⟨h22, _, _, h45, h46, h47, h48⟩ := expr_ctx s hs
    rw [List.append_assoc, List.cons_append]
    refine .trans (m1 rfl s hs _ _ _) ?_
    sh 20 66
    refine .trans (m2 rfl 66 92 (by decide) _ _ _) ?_
    rc 15 45 h48
    exact .refl
  | @sub a b u v _ _ ih1 ih2 =>
    obtain ⟨t1, f1, _, m1⟩ := ih1 hok.1
    obtain ⟨t2, f2, m2, _⟩ := ih2 hok.2
    refine ⟨t1 ++ ⟨21, none⟩ :: t2, List.rel_append f1 (.cons (word_minus d) f2), by simp,
      fun _ s hs v st rest => ?_⟩
    obtain ⟨h22, _, _, h45, h46, h47, h48⟩ := expr_ctx s hs
    rw [List.append_assoc, List.cons_append]
    refine .trans (m1 rfl s hs _ _ _) ?_
    sh 21 67
    refine .trans (m2 rfl 67 93 (by decide) _ _ _) ?_
    rc 16 45 h48
    exact .refl
  | @mul a b u v _ _ ih1 ih2 =>
    obtain ⟨t1, f1, _, m1⟩ := ih1 hok.1
    obtain ⟨t2, f2, m2, _⟩ := ih2 hok.2
    refine ⟨t1 ++ ⟨22, none⟩ :: t2, List.rel_append f1 (.cons (word_mult d) f2), by simp,
      fun _ s hs v st rest => ?_⟩
    obtain ⟨h22, _, _, h45, h46, h47, h48⟩ := expr_ctx s hs
    rw [List.append_assoc, List.cons_append]
    refine .trans (m1 rfl s hs _ _ _) ?_
    sh 22 68
    refine .trans (m2 rfl 68 94 (by decide) _ _ _) ?_
    rc 13 44 h47
    rc 14 45 h48
    exact .refl

/-- A symbol beyond those a state shifts is not shifted. -/
theorem no_shift {s : ℕ} {l : List ℕ} (hp : -100 ≤ yyPact.getD s 0)
    (h : ((List.range 300).all fun a => l.contains a || (shiftTo s a).isNone) = true) {a : ℕ}
    (ha : a ∉ l) : shiftTo s a = none := by
  by_cases h3 : a < 300
  · have := List.all_eq_true.1 h a (by simpa using h3)
    simpa [ha] using this
  · unfold shiftTo
    simp only
    split_ifs with h1 h2
    · rfl
    · rfl
    · exact absurd (.inr (.inl (by unfold yyLast; omega))) h2

theorem moves_ival {d : Driver} {a b : Num} {ws : List (List Char)} (h : ReadsI a b ws)
    (ha : NumOk d a) (hb : NumOk d b) : ∃ ts, List.Forall₂ (Word d) ws ts ∧
    ∀ s g, (s, g) ∈ [(33, 62), (34, 63), (75, 99)] → ∀ v st rest,
      Moves d ((s, v) :: st, ts ++ rest) ((g, .ival (ivalOf a b)) :: (s, v) :: st, rest) := by
  obtain ⟨ka, sa, hka, hwa, _, hva, hna⟩ := word_num ha
  obtain ⟨kb, sb, hkb, hwb, _, hvb, hnb⟩ := word_num hb
  have hi : ivalOf a b = mkIval sa sb := by
    unfold ivalOf mkIval
    rw [hva, hvb, hna, hnb]
  have key : ∀ p ∈ [(33, 62), (34, 63), (75, 99)], p.1 ≠ 22 ∧ shiftTo p.1 3 = some 61 ∧
      goto p.1 52 = p.2 := by decide +kernel
  have num : ∀ s g, (s, g) ∈ [(61, 86), (106, 118), (86, 107)] → ∀ k str, k = 30 ∨ k = 31 →
      ∀ v st rest, Moves d ((s, v) :: st, ⟨k, some str⟩ :: rest) ((g, .str str) :: (s, v) :: st, rest) := by
    intro s g hs k str hk v st rest
    have key : ∀ p ∈ [(61, 86), (106, 118), (86, 107)], p.1 ≠ 22 ∧ shiftTo p.1 30 = some 84 ∧
      shiftTo p.1 31 = some 85 ∧ goto p.1 42 = p.2 := by decide +kernel
    obtain ⟨h22, h30, h31, h42⟩ := key _ hs
    rcases hk with rfl | rfl
    · refine .head (.shift h22 rfl h30 (by decide)) ?_
      rc 2 g h42
      exact .refl
    · refine .head (.shift h22 rfl h31 (by decide)) ?_
      rc 3 g h42
      exact .refl
  cases h with
  | comma =>
    refine ⟨[⟨3, none⟩, ⟨ka, some sa⟩, ⟨17, none⟩, ⟨kb, some sb⟩, ⟨4, none⟩],
      .cons (word_lint d) (.cons hwa (.cons (word_comma d) (.cons hwb (.cons (word_rint d) .nil)))),
      fun s g hs v st rest => ?_⟩
    obtain ⟨h22, h3, h52⟩ := key _ hs
    simp only [List.cons_append, List.nil_append]
    refine .head (.shift h22 rfl h3 (by decide)) ?_
    refine .trans (num 61 86 (by decide) _ _ hka _ _ _) ?_
    sh 17 106
    refine .trans (num 106 118 (by decide) _ _ hkb _ _ _) ?_
    sh 4 127
    rw [hi]
    rc 21 g h52
    exact .refl
  | plain =>
    refine ⟨[⟨3, none⟩, ⟨ka, some sa⟩, ⟨kb, some sb⟩, ⟨4, none⟩],
      .cons (word_lint d) (.cons hwa (.cons hwb (.cons (word_rint d) .nil))),
      fun s g hs v st rest => ?_⟩
    obtain ⟨h22, h3, h52⟩ := key _ hs
    simp only [List.cons_append, List.nil_append]
    refine .head (.shift h22 rfl h3 (by decide)) ?_
    refine .trans (num 61 86 (by decide) _ _ hka _ _ _) ?_
    refine .trans (num 86 107 (by decide) _ _ hkb _ _ _) ?_
    sh 4 119
    rw [hi]
    rc 22 g h52
    exact .refl

/-- The states before a formula of each category, and the states after it. -/
def fmlCtx : Cat → List (ℕ × ℕ)
  | .prim | .preOr | .preAnd => [(20, 48), (31, 59), (32, 60), (62, 87), (63, 88), (72, 96), (73, 97),
      (74, 98), (99, 111), (104, 116)]
  | .unt | .notOr | .notAnd => [(20, 48), (31, 59), (32, 60), (72, 96), (73, 97), (74, 98), (104, 116)]
  | .chain => [(20, 48), (31, 59), (72, 96), (73, 97), (74, 98), (104, 116)]
  | .all => [(20, 48), (31, 59), (104, 116)]

/-- The symbols that may not follow. -/
def fmlBan : Cat → List ℕ
  | .prim | .unt => [20, 21, 22]
  | .preOr | .notOr => [12, 15, 20, 21, 22]
  | .preAnd | .notAnd | .chain | .all => [11, 12, 15, 20, 21, 22]

theorem fml_ctx (k : Cat) : ∀ p ∈ fmlCtx k, p ∈ fmlCtx .prim := by
  cases k <;> decide

theorem prim_ctx : ∀ p ∈ fmlCtx .prim, p.1 ≠ 22 ∧ p.1 ∈ exprCtx ∧ shiftTo p.1 5 = some 31 ∧
    shiftTo p.1 8 = some 32 ∧ shiftTo p.1 13 = some 33 ∧ shiftTo p.1 14 = some 34 ∧
    shiftTo p.1 32 = some 38 ∧ (goto p.1 49 = 46 ∨ goto p.1 49 = 58) ∧ goto p.1 50 = 47 ∧
    goto p.1 53 = p.2 := by
  decide +kernel

theorem unt_ctx : ∀ p ∈ fmlCtx .unt, p.2 ≠ 22 ∧ shiftTo p.2 15 = some 75 := by
  decide +kernel

theorem chain_ctx : ∀ p ∈ fmlCtx .chain, p.2 ≠ 22 ∧ shiftTo p.2 11 = some 73 ∧ shiftTo p.2 12 = some 74 := by
  decide +kernel

theorem all_ctx : ∀ p ∈ fmlCtx .all, p.2 ≠ 22 ∧ shiftTo p.2 10 = some 72 := by
  decide +kernel

theorem none_45 {a : ℕ} (h : a ∉ [20, 21, 22]) : shiftTo 45 a = none :=
  no_shift (by decide +kernel) (by decide +kernel) h
theorem none_60 {a : ℕ} (h : a ∉ [12, 15]) : shiftTo 60 a = none :=
  no_shift (by decide +kernel) (by decide +kernel) h
theorem none_96 {a : ℕ} (h : a ∉ [11, 12, 15]) : shiftTo 96 a = none :=
  no_shift (by decide +kernel) (by decide +kernel) h
theorem none_97 {a : ℕ} (h : a ∉ [11, 12, 15]) : shiftTo 97 a = none :=
  no_shift (by decide +kernel) (by decide +kernel) h
theorem none_98 {a : ℕ} (h : a ∉ [11, 12, 15]) : shiftTo 98 a = none :=
  no_shift (by decide +kernel) (by decide +kernel) h

/-- Reduce before a symbol known not to be shifted. -/
local macro "rn " r:num g:term:max h:term:max e:term:max : tactic =>
  `(tactic| refine .head (.reduce (r := $r) (g := $g) (by decide) rfl $h rfl (by decide) $e rfl rfl) ?_)

theorem moves_fml {d : Driver} {k : Cat} {f : Fml} {ws : List (List Char)} (h : ReadsF k f ws)
    (hok : FOk d f) : ∃ ts, List.Forall₂ (Word d) ws ts ∧
    ∀ s g, (s, g) ∈ fmlCtx k → ∀ v st rest, headSym rest ∉ fmlBan k →
      Moves d ((s, v) :: st, ts ++ rest)
        ((g, .tr (f.tree d.smap (formulaOf d))) :: (s, v) :: st, rest) := by
  induction h with
  | @less a b u v w ha hw hb =>
    obtain ⟨t1, f1, _, m1⟩ := moves_expr ha hok.1
    obtain ⟨t2, f2, _, m2⟩ := moves_expr hb hok.2
    refine ⟨t1 ++ ⟨7, none⟩ :: t2, List.rel_append f1 (.cons (word_key d hw) f2), ?_⟩
    intro s g hs v st rest hban
    obtain ⟨h22, hx, _, _, _, _, _, h49, h50, h53⟩ := prim_ctx _ hs
    simp only at h22 hx h49 h50 h53
    rw [List.append_assoc, List.cons_append]
    refine .trans (m1 rfl s hx _ _ _) ?_
    refine .head (.reduce (a := 7) (r := 17) (by decide) rfl (by decide +kernel) rfl (by decide) rfl rfl rfl) ?_
    refine .trans (b := ((71, .str "<") :: (goto s 49, .tr (a.tree d.smap)) :: (s, v) :: st, t2 ++ rest)) ?_ ?_
    · rcases h49 with h | h <;> rw [show goto s (yyR1.getD 17 0) = _ from h, h]
      · sh 7 69
        rc 19 71 (by decide +kernel)
        exact .refl
      · sh 7 69
        rc 19 71 (by decide +kernel)
        exact .refl
    refine .trans (m2 rfl 71 (by decide) _ _ _) ?_
    rn 17 95 (none_45 hban) (by decide +kernel)
    rc 18 47 h50
    rc 23 g h53
    exact .refl
  | @greater a b u v w ha hw hb =>
    obtain ⟨t1, f1, _, m1⟩ := moves_expr ha hok.1
    obtain ⟨t2, f2, _, m2⟩ := moves_expr hb hok.2
    refine ⟨t1 ++ ⟨9, none⟩ :: t2, List.rel_append f1 (.cons (word_key d hw) f2), ?_⟩
    intro s g hs v st rest hban
    obtain ⟨h22, hx, _, _, _, _, _, h49, h50, h53⟩ := prim_ctx _ hs
    simp only at h22 hx h49 h50 h53
    rw [List.append_assoc, List.cons_append]
    refine .trans (m1 rfl s hx _ _ _) ?_
    refine .head (.reduce (a := 9) (r := 17) (by decide) rfl (by decide +kernel) rfl (by decide) rfl rfl rfl) ?_
    refine .trans (b := ((71, .str ">") :: (goto s 49, .tr (a.tree d.smap)) :: (s, v) :: st, t2 ++ rest)) ?_ ?_
    · rcases h49 with h | h <;> rw [show goto s (yyR1.getD 17 0) = _ from h, h]
      · sh 9 70
        rc 20 71 (by decide +kernel)
        exact .refl
      · sh 9 70
        rc 20 71 (by decide +kernel)
        exact .refl
    refine .trans (m2 rfl 71 (by decide) _ _ _) ?_
    rn 17 95 (none_45 hban) (by decide +kernel)
    rc 18 47 h50
    rc 23 g h53
    exact .refl
  | ref n =>
    obtain ⟨hn, T, hT⟩ := hok
    have hi := name_ident hn
    have hr := name_reserved hn
    have ht : identTok d n = ⟨32, some n⟩ := by
      unfold identTok
      rw [hr, hT]
      rfl
    have hw := word_ident d hi
    rw [String.ofList_toList, ht] at hw
    refine ⟨[⟨32, some n⟩], .cons hw .nil, fun s g hs v st rest _ => ?_⟩
    obtain ⟨h22, _, _, _, _, _, h32, _, _, h53⟩ := prim_ctx _ hs
    simp only at h22 h32 h53
    rw [List.singleton_append]
    refine .head (.shift h22 rfl h32 (by decide)) ?_
    have e : Fml.tree d.smap (formulaOf d) (.ref n) = T.clone := by
      unfold Fml.tree formulaOf
      rw [hT]
      rfl
    rw [e]
    refine .head (.reduceC (r := 32) (g := g) (u := .tr T.clone) (by decide)
      (by decide +kernel) rfl (by decide) h53 rfl ?_) ?_
    · change act d 32 [.str n] = _
      rw [act_32, hT]
    exact .refl
  | @paren f ws _ ih =>
    obtain ⟨ts, hf, hm⟩ := ih hok
    refine ⟨⟨5, none⟩ :: (ts ++ [⟨6, none⟩]),
      .cons (word_lparen d) (List.rel_append hf (.cons (show Word d [')'] ⟨6, none⟩ from word_rparen d) .nil)),
      fun s g hs v st rest _ => ?_⟩
    obtain ⟨h22, _, h5, _, _, _, _, _, _, h53⟩ := prim_ctx _ hs
    simp only at h22 h5 h53
    rw [List.cons_append, List.append_assoc, List.singleton_append]
    refine .head (.shift h22 rfl h5 (by decide)) ?_
    refine .trans (hm 31 59 (by decide) _ _ _ (by simp [headSym, fmlBan])) ?_
    sh 6 83
    rc 31 g h53
    exact .refl
  | @ev k a b f w i ws hk hw hi _ ih =>
    obtain ⟨t1, f1, m1⟩ := moves_ival hi hok.1 hok.2.1
    obtain ⟨t2, f2, m2⟩ := ih hok.2.2
    refine ⟨⟨14, none⟩ :: (t1 ++ t2), .cons (word_key d hw) (List.rel_append f1 f2),
      fun s g hs v st rest hban => ?_⟩
    obtain ⟨h22, _, _, _, _, h14, _, _, _, h53⟩ := prim_ctx _ (fml_ctx k _ hs)
    simp only at h22 h14 h53
    rw [List.cons_append, List.append_assoc]
    refine .head (.shift h22 rfl h14 (by decide)) ?_
    refine .trans (m1 34 63 (by decide) _ _ _) ?_
    refine .trans (m2 63 88 (by rcases hk with rfl | rfl | rfl <;> decide) _ _ _ hban) ?_
    rc 28 g h53
    exact .refl
  | @alw k a b f w i ws hk hw hi _ ih =>
    obtain ⟨t1, f1, m1⟩ := moves_ival hi hok.1 hok.2.1
    obtain ⟨t2, f2, m2⟩ := ih hok.2.2
    refine ⟨⟨13, none⟩ :: (t1 ++ t2), .cons (word_key d hw) (List.rel_append f1 f2),
      fun s g hs v st rest hban => ?_⟩
    obtain ⟨h22, _, _, _, h13, _, _, _, _, h53⟩ := prim_ctx _ (fml_ctx k _ hs)
    simp only at h22 h13 h53
    rw [List.cons_append, List.append_assoc]
    refine .head (.shift h22 rfl h13 (by decide)) ?_
    refine .trans (m1 33 62 (by decide) _ _ _) ?_
    refine .trans (m2 62 87 (by rcases hk with rfl | rfl | rfl <;> decide) _ _ _ hban) ?_
    rc 29 g h53
    exact .refl
  | @not k f w ws hk hw _ ih =>
    obtain ⟨t2, f2, m2⟩ := ih hok
    refine ⟨⟨8, none⟩ :: t2, .cons (word_key d hw) f2, fun s g hs v st rest hban => ?_⟩
    obtain ⟨h22, _, _, h8, _, _, _, _, _, h53⟩ := prim_ctx _ hs
    simp only at h22 h8 h53
    simp only [fmlBan, List.mem_cons, List.not_mem_nil, or_false, not_or] at hban
    rw [List.cons_append]
    refine .head (.shift h22 rfl h8 (by decide)) ?_
    refine .trans (m2 32 60 (by rcases hk with rfl | rfl <;> decide) _ _ _
      (by rcases hk with rfl | rfl <;> simp [fmlBan, hban])) ?_
    rn 24 g (none_60 (by simp [hban])) h53
    exact .refl
  | @notAnd f w ws hw _ ih =>
    obtain ⟨t2, f2, m2⟩ := ih hok
    refine ⟨⟨8, none⟩ :: t2, .cons (word_key d hw) f2, fun s g hs v st rest hban => ?_⟩
    obtain ⟨h22, _, _, h8, _, _, _, _, _, h53⟩ := prim_ctx _ hs
    simp only at h22 h8 h53
    rw [List.cons_append]
    refine .head (.shift h22 rfl h8 (by decide)) ?_
    refine .trans (m2 32 60 (by decide) _ _ _ hban) ?_
    simp only [fmlBan, List.mem_cons, List.not_mem_nil, or_false, not_or] at hban
    rn 24 g (none_60 (by simp [hban])) h53
    exact .refl
  | @notImplies f g' w u x v hw _ hx _ ih1 ih2 =>
    obtain ⟨t1, f1, m1⟩ := ih1 hok.1
    obtain ⟨t2, f2, m2⟩ := ih2 hok.2
    refine ⟨⟨8, none⟩ :: (t1 ++ ⟨12, none⟩ :: t2),
      .cons (word_key d hw) (List.rel_append f1 (.cons (word_key d hx) f2)), fun s g hs v st rest hban => ?_⟩
    obtain ⟨h22, _, _, h8, _, _, _, _, _, h53⟩ := prim_ctx _ hs
    simp only at h22 h8 h53
    rw [List.cons_append, List.append_assoc, List.cons_append]
    refine .head (.shift h22 rfl h8 (by decide)) ?_
    refine .trans (m1 32 60 (by decide) _ _ _ (by simp [headSym, fmlBan])) ?_
    sh 12 74
    refine .trans (m2 74 98 (by decide) _ _ _ hban) ?_
    simp only [fmlBan, List.mem_cons, List.not_mem_nil, or_false, not_or] at hban
    rn 27 60 (none_98 (by simp [hban])) (by decide +kernel)
    rn 24 g (none_60 (by simp [hban])) h53
    exact .refl
  | @one k f ws hk _ ih =>
    obtain ⟨t2, f2, m2⟩ := ih hok
    refine ⟨t2, f2, fun s g hs v st rest hban => m2 s g ?_ _ _ _ ?_⟩
    · rcases hk with rfl | rfl | rfl <;> exact fml_ctx _ _ hs
    · rcases hk with rfl | rfl | rfl <;> exact hban
  | @untl k f a b g' u w i v hk _ hw hi _ ih1 ih2 =>
    obtain ⟨t1, f1, m1⟩ := ih1 hok.2.2.1
    obtain ⟨t2, f2, m2⟩ := moves_ival hi hok.1 hok.2.1
    obtain ⟨t3, f3, m3⟩ := ih2 hok.2.2.2
    refine ⟨t1 ++ ⟨15, none⟩ :: (t2 ++ t3),
      List.rel_append f1 (.cons (word_key d hw) (List.rel_append f2 f3)), fun s g hs v st rest hban => ?_⟩
    have hs' : (s, g) ∈ fmlCtx .unt := by rcases hk with rfl | rfl | rfl <;> exact hs
    obtain ⟨_, _, _, _, _, _, _, _, _, h53⟩ := prim_ctx _ (fml_ctx _ _ hs)
    obtain ⟨hg22, h15⟩ := unt_ctx _ hs'
    simp only at hg22 h15 h53
    rw [List.append_assoc, List.cons_append, List.append_assoc]
    refine .trans (m1 s g hs' _ _ _ (by simp [headSym, fmlBan])) ?_
    refine .head (.shift hg22 rfl h15 (by decide)) ?_
    refine .trans (m2 75 99 (by decide) _ _ _) ?_
    refine .trans (m3 99 111 (by rcases hk with rfl | rfl | rfl <;> decide) _ _ _
      (by rcases hk with rfl | rfl | rfl <;> exact hban)) ?_
    rc 30 g h53
    exact .refl
  | @chain k f ws hk _ ih =>
    obtain ⟨t2, f2, m2⟩ := ih hok
    refine ⟨t2, f2, fun s g hs v st rest hban => m2 s g ?_ _ _ _ ?_⟩
    · have : ∀ p ∈ fmlCtx .chain, p ∈ fmlCtx .unt := by decide
      rcases hk with rfl | rfl | rfl <;> exact this _ hs
    · simp only [fmlBan, List.mem_cons, List.not_mem_nil, or_false, not_or] at hban
      rcases hk with rfl | rfl | rfl <;> simp [fmlBan, hban]
  | @or k f g' u w v hk _ hw _ ih1 ih2 =>
    obtain ⟨t1, f1, m1⟩ := ih1 hok.1
    obtain ⟨t2, f2, m2⟩ := ih2 hok.2
    refine ⟨t1 ++ ⟨11, none⟩ :: t2, List.rel_append f1 (.cons (word_key d hw) f2),
      fun s g hs v st rest hban => ?_⟩
    have hs' : ∀ p ∈ fmlCtx .chain, p ∈ fmlCtx .unt := by decide
    obtain ⟨_, _, _, _, _, _, _, _, _, h53⟩ := prim_ctx _ (fml_ctx _ _ hs)
    obtain ⟨hg22, h11, _⟩ := chain_ctx _ hs
    simp only at hg22 h11 h53
    rw [List.append_assoc, List.cons_append]
    refine .trans (m1 s g (by rcases hk with rfl | rfl <;> exact hs' _ hs) _ _ _
      (by rcases hk with rfl | rfl <;> simp [headSym, fmlBan])) ?_
    refine .head (.shift hg22 rfl h11 (by decide)) ?_
    refine .trans (m2 73 97 (by decide) _ _ _ hban) ?_
    simp only [fmlBan, List.mem_cons, List.not_mem_nil, or_false, not_or] at hban
    rn 26 g (none_97 (by simp [hban])) h53
    exact .refl
  | @implies f g' u w v _ hw _ ih1 ih2 =>
    obtain ⟨t1, f1, m1⟩ := ih1 hok.1
    obtain ⟨t2, f2, m2⟩ := ih2 hok.2
    refine ⟨t1 ++ ⟨12, none⟩ :: t2, List.rel_append f1 (.cons (word_key d hw) f2),
      fun s g hs v st rest hban => ?_⟩
    have hs' : ∀ p ∈ fmlCtx .chain, p ∈ fmlCtx .unt := by decide
    obtain ⟨_, _, _, _, _, _, _, _, _, h53⟩ := prim_ctx _ (fml_ctx _ _ hs)
    obtain ⟨hg22, _, h12⟩ := chain_ctx _ hs
    simp only at hg22 h12 h53
    rw [List.append_assoc, List.cons_append]
    refine .trans (m1 s g (hs' _ hs) _ _ _ (by simp [headSym, fmlBan])) ?_
    refine .head (.shift hg22 rfl h12 (by decide)) ?_
    refine .trans (m2 74 98 (by decide) _ _ _ hban) ?_
    simp only [fmlBan, List.mem_cons, List.not_mem_nil, or_false, not_or] at hban
    rn 27 g (none_98 (by simp [hban])) h53
    exact .refl
  | @all f ws _ ih =>
    obtain ⟨t2, f2, m2⟩ := ih hok
    have hs' : ∀ p ∈ fmlCtx .all, p ∈ fmlCtx .chain := by decide
    exact ⟨t2, f2, fun s g hs v st rest hban => m2 s g (hs' _ hs) _ _ _ hban⟩
  | @and f g' u w v _ hw _ ih1 ih2 =>
    obtain ⟨t1, f1, m1⟩ := ih1 hok.1
    obtain ⟨t2, f2, m2⟩ := ih2 hok.2
    refine ⟨t1 ++ ⟨10, none⟩ :: t2, List.rel_append f1 (.cons (word_key d hw) f2),
      fun s g hs v st rest hban => ?_⟩
    obtain ⟨_, _, _, _, _, _, _, _, _, h53⟩ := prim_ctx _ (fml_ctx _ _ hs)
    obtain ⟨hg22, h10⟩ := all_ctx _ hs
    simp only at hg22 h10 h53
    rw [List.append_assoc, List.cons_append]
    refine .trans (m1 s g hs _ _ _ (by simp [headSym, fmlBan])) ?_
    refine .head (.shift hg22 rfl h10 (by decide)) ?_
    refine .trans (m2 72 96 (by decide) _ _ _ hban) ?_
    simp only [fmlBan, List.mem_cons, List.not_mem_nil, or_false, not_or] at hban
    rn 25 g (none_96 (by simp [hban])) h53
    exact .refl

end Props
end STLRom
