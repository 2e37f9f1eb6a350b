import Verif.Proofs.PrintNum
import Verif.Proofs.Blanked

/-!
# The words of printed formulas
-/

namespace STLRom
namespace Props
open Scan Text Parse Spec

/-- What can follow an operand in a printed text. -/
def Tail (v : List Char) : Prop := ∀ c v', v = c :: v' → c ∈ [' ', ')', '+', '-', '*', ',', ']']

/-- In a printed text, `text` is read as the words `ws`. -/
def Spells (text : List Char) (ws : List (List Char)) : Prop :=
  ∀ v ws', Tail v → Spelled ws' v → Spelled (ws ++ ws') (text ++ v)

theorem tail_nil : Tail [] := by intro c v h; simp at h

theorem tail_cons {c : Char} (v : List Char) (h : c ∈ [' ', ')', '+', '-', '*', ',', ']']) : Tail (c :: v) := by
  intro e v' he
  simp only [List.cons.injEq] at he
  rw [← he.1]
  exact h

theorem spelled_word {w v : List Char} {ws : List (List Char)} (h : Stops w v) (hv : Spelled ws v) :
    Spelled (w :: ws) (w ++ v) := Spelled.cons (g := []) .nil h hv

theorem spelled_bracket {c : Char} (hc : c ∈ ['(', ')', ']', ',']) {v : List Char} {ws : List (List Char)}
    (hv : Spelled ws v) : Spelled ([c] :: ws) (c :: v) := spelled_word (stops_bracket hc) hv

theorem spelled_ident {w v : List Char} {ws : List (List Char)} (h : IdentWord w)
    (hs : ∀ c v', v = c :: v' → ¬ (c.isAlphanum = true ∨ c = '_')) (hv : Spelled ws v) :
    Spelled (w :: ws) (w ++ v) := spelled_word (stops_ident h hs) hv

theorem tail_ident {v : List Char} (h : Tail v) : ∀ c v', v = c :: v' → ¬ (c.isAlphanum = true ∨ c = '_') := by
  have key : ∀ c ∈ [' ', ')', '+', '-', '*', ',', ']'], ¬ (c.isAlphanum = true ∨ c = '_') := by decide
  exact fun c v' he => key c (h c v' he)

theorem tail_lit {v : List Char} (h : Tail v) : ∀ c v', v = c :: v' → ¬ (c.isDigit = true ∨ c = '.') := by
  have key : ∀ c ∈ [' ', ')', '+', '-', '*', ',', ']'], ¬ (c.isDigit = true ∨ c = '.') := by decide
  exact fun c v' he => key c (h c v' he)

/-- A key word before a blank. -/
theorem spelled_key {k : Key} {w : List Char} (hk : k.Is w) {v : List Char} {ws : List (List Char)}
    (hv : Spelled ws v) : Spelled (w :: ws) (w ++ ' ' :: v) := by
  obtain ⟨n, h1, h2, h3⟩ := word_key Driver.init hk
  obtain ⟨hq, hc⟩ := plain_key hk
  refine spelled_word (stops_gap h1 h2 h3 hq hc ?_) (spelled_gap hv)
  intro c v he
  simp only [List.cons.injEq] at he
  rw [← he.1]
  decide

theorem check_sign_stop : ([43, 45].all fun b => (List.range 256).all fun e =>
    (decide (48 ≤ e) && decide (e ≤ 57)) || e == 46 || e == 62 ||
      next (next 1 (cls b)) (cls e) == jam) = true := by
  decide +kernel

theorem check_mult_stop : ((List.range 256).all fun e => next (next 1 (cls 42)) (cls e) == jam) = true := by
  decide +kernel

/-- A text that does not begin with a digit, `.` or `>`. -/
def NoNum (v : List Char) : Prop := ∃ c v', v = c :: v' ∧ c.isDigit = false ∧ c ≠ '.' ∧ c ≠ '>'

theorem stops_sign {c : Char} {v : List Char} (h : c ∈ ['+', '-']) (hv : NoNum v) : Stops [c] v := by
  have hb : byte c ∈ [43, 45] := by
    simp only [List.mem_cons, List.not_mem_nil, or_false] at h
    rcases h with rfl | rfl <;> decide
  have hm : ∃ n, munch [c] = some (n, [c], []) := by
    simp only [List.mem_cons, List.not_mem_nil, or_false] at h
    rcases h with rfl | rfl <;> exact ⟨_, rfl⟩
  obtain ⟨n, hm⟩ := hm
  obtain ⟨n', u', v', h1, h2⟩ := munch_spec (text := [c]) (by simp)
  rw [hm] at h1
  simp only [Option.some.injEq, Prod.mk.injEq] at h1
  obtain ⟨rfl, rfl, rfl⟩ := h1
  refine stops_jam h2.2.2.1 h2.2.2.2.1 fun e v' he => ?_
  obtain ⟨e', v'', rfl, g1, g2, g3⟩ := hv
  simp only [List.cons.injEq] at he
  obtain ⟨rfl, rfl⟩ := he
  have := List.all_eq_true.1 (List.all_eq_true.1 check_sign_stop _ hb) (byte e') (by simpa using byte_lt e')
  simp only [Bool.or_eq_true, Bool.and_eq_true, decide_eq_true_eq, beq_iff_eq] at this
  refine this.resolve_left fun hn => ?_
  have hbe : byte e' ≤ 62 → e'.toNat = byte e' := by
    intro h
    unfold byte at h ⊢
    omega
  have hbe := hbe (by omega)
  rcases hn with (⟨h3, h4⟩ | h3) | h3
  · have e5 : e'.val.toNat = e'.toNat := rfl
    have e6 : '0'.val.toNat = 48 := rfl
    have e7 : '9'.val.toNat = 57 := rfl
    have : e'.isDigit = true := by
      simp only [Char.isDigit, Bool.and_eq_true, decide_eq_true_eq, UInt32.le_iff_toNat_le, ge_iff_le]
      omega
    rw [g1] at this
    simp at this
  · exact g2 (char_of_toNat (by rw [hbe, h3]; rfl))
  · exact g3 (char_of_toNat (by rw [hbe, h3]; rfl))

theorem stops_mult {v : List Char} : Stops ['*'] v := by
  have hm : munch ['*'] = some (24, ['*'], []) := rfl
  obtain ⟨n', u', v', h1, h2⟩ := munch_spec (text := ['*']) (by simp)
  rw [hm] at h1
  simp only [Option.some.injEq, Prod.mk.injEq] at h1
  obtain ⟨rfl, rfl, rfl⟩ := h1
  refine stops_jam h2.2.2.1 h2.2.2.2.1 fun e v' _ => ?_
  have := List.all_eq_true.1 check_mult_stop (byte e) (by simpa using byte_lt e)
  rw [beq_iff_eq] at this
  exact this

theorem noNum_name {s : String} (h : Name s) (v : List Char) : NoNum (s.toList ++ v) := by
  obtain ⟨c, w, hs, hc, _⟩ := h.ident
  refine ⟨c, w ++ v, by rw [hs]; rfl, ?_, ?_, ?_⟩
  · cases hd : c.isDigit with
    | false => rfl
    | true =>
      exfalso
      simp only [Char.isDigit, Char.isAlpha, Char.isUpper, Char.isLower, Bool.or_eq_true, Bool.and_eq_true,
        decide_eq_true_eq, UInt32.le_iff_toNat_le, ge_iff_le] at hd hc
      have e1 : 'A'.val.toNat = 65 := rfl
      have e3 : 'a'.val.toNat = 97 := rfl
      have e7 : '9'.val.toNat = 57 := rfl
      omega
  · rintro rfl
    exact absurd hc (by decide)
  · rintro rfl
    exact absurd hc (by decide)

/-- The number, as printed, is a number of the grammar. -/
theorem printed_num {d : Driver} {p : String} {v : ℚ} (hk : KnownP d p) (hs : p = "" → Short v) :
    ∃ n : Num, NumOk d n ∧ n.name = p ∧ n.value = (if p = "" then v else 0) ∧
      n.word = (if p = "" then Print.number v else p.toList) ∧ Spells n.word [n.word] ∧
      (∀ w, ¬ (p = "" ∧ 0 ≤ v) → NoNum (n.word ++ w)) ∧ ∀ v', n.word ≠ ']' :: v' := by
  by_cases hp : p = ""
  · obtain ⟨l, h1, h2, h3, h4⟩ := printed_lit (hs hp)
    have hok : l.whole ++ l.frac ≠ [] := by simp [h3]
    refine ⟨.lit l, hok, hp.symm, by simp [Num.value, h2, hp], by simp [Num.word, h1, hp], ?_, ?_, ?_⟩
    · exact fun v ws hv hw => spelled_word (stops_lit l hok (tail_lit hv)) hw
    · intro w hn
      have : l.neg = true := h4.2 (by
        by_contra h
        exact hn ⟨hp, not_lt.1 h⟩)
      simp only [Num.word, Lit.word, this, if_true]
      exact ⟨'-', _, rfl, by decide, by decide, by decide⟩
    · intro v' he
      have hr : ']' ∈ l.word := by
        rw [show l.word = ']' :: v' from he]
        exact List.mem_cons_self ..
      have hd : ∀ ds : List (Fin 10), ']' ∉ Lit.chars ds := by
        intro ds
        simp only [Lit.chars, List.mem_map, not_exists, not_and]
        intro e _
        have key : ∀ e : Fin 10, Char.ofNat (48 + e.val) ≠ ']' := by decide
        exact key e
      simp only [Lit.word, List.mem_append] at hr
      rcases hr with (hr | hr) | hr
      · split_ifs at hr <;> simp at hr
      · exact hd _ hr
      · split_ifs at hr
        · simp at hr
        · simp only [List.mem_cons] at hr
          rcases hr with hr | hr
          · exact absurd hr (by decide)
          · exact hd _ hr
  · have hk := hk.resolve_left hp
    refine ⟨.par p, hk, rfl, by simp [Num.value, hp], by simp [Num.word, hp], ?_, ?_, ?_⟩
    · exact fun v ws hv hw => spelled_ident (name_ident hk.1) (tail_ident hv) hw
    · exact fun w _ => noNum_name hk.1 w
    · intro v' he
      obtain ⟨c, w, hs, hc, _⟩ := hk.1.ident
      have he : p.toList = _ := he
      rw [hs] at he
      simp only [List.cons.injEq] at he
      rw [he.1] at hc
      exact absurd hc (by decide)

/-- Signal expressions. -/
theorem clear_expr {d : Driver} {b : Bool} {T : Tr} (h : ClearS b T) : Known d T →
    ∃ e ws, ReadsS b e ws ∧ SOk d e ∧ e.tree d.smap = renew d.smap T ∧ Spells T.print ws ∧
      (b = true → ¬ Unsigned T → ∀ w, NoNum (T.print ++ w)) := by
  induction h with
  | @param st p v td hp =>
    intro hk
    obtain ⟨n, h1, h2, h3, h4, h5, h6, _⟩ := printed_num (v := v) (p := p) hk (fun h => absurd h hp)
    refine ⟨.num n, _, .num n, h1, by simp [SExp.tree, renew, h2, h3], ?_, ?_⟩
    · simpa only [Tr.print, h4] using h5
    · intro _ hu w
      have := h6 w (by simp [hp])
      simpa only [Tr.print, h4] using this
  | @const st v td hs =>
    intro hk
    obtain ⟨n, h1, h2, h3, h4, h5, h6, _⟩ := printed_num (v := v) (p := "") (d := d) (.inl rfl) (fun _ => hs)
    refine ⟨.num n, _, .num n, h1, by simp [SExp.tree, renew, h2, h3], ?_, ?_⟩
    · simpa only [Tr.print, h4] using h5
    · intro _ hu w
      have := h6 w hu
      simpa only [Tr.print, h4] using this
  | @sig st x m td =>
    intro hk
    refine ⟨.sig x, _, .sig x, hk, rfl, ?_, fun _ _ w => ?_⟩
    · intro v ws hv hw
      have h1 : Spelled ([']'] :: ws) (']' :: v) := spelled_bracket (by decide) hw
      have h2 : Spelled (['t'] :: [']'] :: ws) (['t'] ++ ']' :: v) :=
        spelled_ident ⟨'t', [], rfl, by decide, by simp⟩ (by
          intro c v' he
          simp only [List.cons.injEq] at he
          rw [← he.1]
          decide) h1
      have h3 : Spelled (['['] :: ['t'] :: [']'] :: ws) (['['] ++ (['t'] ++ ']' :: v)) :=
        spelled_word (stops_lint (by simp)) h2
      have h4 := spelled_ident (name_ident hk.1) (v := ['['] ++ (['t'] ++ ']' :: v)) (by
          intro c v' he
          simp only [List.cons_append, List.nil_append, List.cons.injEq] at he
          rw [← he.1]
          decide) h3
      have he : (Tr.sig st x m td).print ++ v = x.toList ++ (['['] ++ (['t'] ++ ']' :: v)) := by
        simp [Tr.print]
      rw [he]
      exact h4
    · simp only [Tr.print, List.append_assoc]
      exact noNum_name hk.1 _
  | single _ ih =>
    intro hk
    obtain ⟨e, ws, h1, h2, h3, h4, _⟩ := ih hk
    exact ⟨e, ws, .single h1, h2, h3, h4, by simp⟩
  | @abs st c _ ih =>
    intro hk
    obtain ⟨e, ws, h1, h2, h3, h4, _⟩ := ih hk
    refine ⟨.abs e, _, .abs h1, h2, by simp [SExp.tree, renew, h3], ?_, by simp⟩
    intro v ws' hv hw
    have g1 : Spelled ([')'] :: ws') (')' :: v) := spelled_bracket (by decide) hw
    have g2 := h4 _ _ (tail_cons _ (by decide)) (spelled_gap g1)
    have g3 : Spelled (['('] :: (ws ++ [')'] :: ws')) ('(' :: ' ' :: (c.print ++ ' ' :: ')' :: v)) :=
      spelled_bracket (by decide) (spelled_gap g2)
    have g4 := spelled_ident (w := "abs".toList) ⟨'a', ['b', 's'], rfl, by decide, by decide⟩ (by
          intro c v' he
          simp only [List.cons.injEq] at he
          rw [← he.1]
          decide) g3
    simpa [Tr.print] using g4
  | @plus st l r _ _ hu ih1 ih2 =>
    rintro ⟨k1, k2⟩
    obtain ⟨e1, ws1, h1, h2, h3, h4, _⟩ := ih1 k1
    obtain ⟨e2, ws2, g1, g2, g3, g4, g5⟩ := ih2 k2
    refine ⟨.add e1 e2, _, .add h1 g1, ⟨h2, g2⟩, by simp [SExp.tree, renew, h3, g3], ?_, by simp⟩
    intro v ws' hv hw
    have := h4 _ _ (tail_cons _ (by decide)) (spelled_word (w := ['+']) (stops_sign (by decide) (g5 rfl hu v))
      (g4 v ws' hv hw))
    simpa [Tr.print] using this
  | @minus st l r _ _ hu ih1 ih2 =>
    rintro ⟨k1, k2⟩
    obtain ⟨e1, ws1, h1, h2, h3, h4, _⟩ := ih1 k1
    obtain ⟨e2, ws2, g1, g2, g3, g4, g5⟩ := ih2 k2
    refine ⟨.sub e1 e2, _, .sub h1 g1, ⟨h2, g2⟩, by simp [SExp.tree, renew, h3, g3], ?_, by simp⟩
    intro v ws' hv hw
    have := h4 _ _ (tail_cons _ (by decide)) (spelled_word (w := ['-']) (stops_sign (by decide) (g5 rfl hu v))
      (g4 v ws' hv hw))
    simpa [Tr.print] using this
  | @mult st l r _ _ ih1 ih2 =>
    rintro ⟨k1, k2⟩
    obtain ⟨e1, ws1, h1, h2, h3, h4, _⟩ := ih1 k1
    obtain ⟨e2, ws2, g1, g2, g3, g4, g5⟩ := ih2 k2
    refine ⟨.mul e1 e2, _, .mul h1 g1, ⟨h2, g2⟩, by simp [SExp.tree, renew, h3, g3], ?_, by simp⟩
    intro v ws' hv hw
    have := h4 _ _ (tail_cons _ (by decide)) (spelled_word (w := ['*']) stops_mult (g4 v ws' hv hw))
    simpa [Tr.print] using this

/-- Intervals, after a word that ends in `_`. -/
theorem clear_ival {d : Driver} {I : Ival} (h : ClearI I) (h1 : KnownP d I.beginStr) (h2 : KnownP d I.stopStr) :
    ∃ a b, NumOk d a ∧ NumOk d b ∧ ivalOf a b = renewI I ∧ ∀ v ws, Spelled ws v →
      Spelled (['['] :: a.word :: [','] :: b.word :: [']'] :: ws) (I.print ++ v) := by
  obtain ⟨a, a1, a2, a3, a4, a5, _, a7⟩ := printed_num h1 h.1
  obtain ⟨b, b1, b2, b3, b4, b5, _, b7⟩ := printed_num h2 h.2
  refine ⟨a, b, a1, b1, by simp [ivalOf, renewI, a2, a3, b2, b3], fun v ws hw => ?_⟩
  have g1 : Spelled ([']'] :: ws) (']' :: v) := spelled_bracket (by decide) hw
  have g2 := b5 _ _ (tail_cons _ (by decide)) g1
  have g3 : Spelled ([','] :: b.word :: [']'] :: ws) (',' :: (b.word ++ ']' :: v)) :=
    spelled_bracket (by decide) g2
  have g4 := a5 _ _ (tail_cons _ (by decide)) g3
  have g5 := spelled_word (w := ['[']) (stops_lint (v := a.word ++ ',' :: (b.word ++ ']' :: v)) (by
    intro v' he
    cases ha : a.word with
    | nil => rw [ha] at he; simp at he
    | cons c w =>
      rw [ha] at he
      simp only [List.cons_append, List.cons.injEq] at he
      exact a7 w (by rw [ha, he.1]))) g4
  simpa [Ival.print, ← a4, ← b4] using g5

theorem parens_read {c : Tr} {f : Fml} {ws : List (List Char)} (h1 : ReadsF .all f ws)
    (h2 : Spells c.print ws) : ReadsF .prim f (['('] :: (ws ++ [[')']])) ∧
    Spells (" (".toList ++ (c.print ++ ") ".toList)) (['('] :: (ws ++ [[')']])) ∧
    Spells (" (".toList ++ (c.print ++ [')'])) (['('] :: (ws ++ [[')']])) := by
  refine ⟨.paren h1, fun v ws' hv hw => ?_, fun v ws' hv hw => ?_⟩
  · have g1 : Spelled ([')'] :: ws') (')' :: ' ' :: v) := spelled_bracket (by decide) (spelled_gap hw)
    have g2 := h2 _ _ (tail_cons _ (by decide)) g1
    have g3 : Spelled (['('] :: (ws ++ [')'] :: ws')) ('(' :: (c.print ++ ')' :: ' ' :: v)) :=
      spelled_bracket (by decide) g2
    simpa using spelled_gap g3
  · have g1 : Spelled ([')'] :: ws') (')' :: v) := spelled_bracket (by decide) hw
    have g2 := h2 _ _ (tail_cons _ (by decide)) g1
    have g3 : Spelled (['('] :: (ws ++ [')'] :: ws')) ('(' :: (c.print ++ ')' :: v)) :=
      spelled_bracket (by decide) g2
    simpa using spelled_gap g3

theorem spells_infix {k : Key} {w u v : List Char} {a b : List (List Char)} (hk : k.Is w) (h1 : Spells u a)
    (h2 : Spells v b) : Spells (u ++ ((' ' :: (w ++ [' '])) ++ v)) (a ++ w :: b) := by
  intro y ws hy hw
  have := h1 _ _ (tail_cons _ (by decide)) (spelled_gap (spelled_key hk (h2 y ws hy hw)))
  simpa using this

theorem spells_not {v : List Char} {b : List (List Char)} (h : Spells v b) :
    Spells ("not ".toList ++ v) ("not".toList :: b) := by
  intro y ws hy hw
  have := spelled_key (k := .not) ⟨"not", by decide, rfl⟩ (h y ws hy hw)
  simpa using this

theorem spells_timed {s : String} {i v : List Char} {a b : Num} {c : List (List Char)} (hs : IdentWord s.toList)
    (h1 : ∀ v ws, Spelled ws v → Spelled (['['] :: a.word :: [','] :: b.word :: [']'] :: ws) (i ++ v))
    (hi : ∃ i', i = '[' :: i') (h2 : Spells v c) :
    Spells (s.toList ++ (i ++ v)) (s.toList :: ([['['], a.word, [','], b.word, [']']] ++ c)) := by
  intro y ws hy hw
  obtain ⟨i', rfl⟩ := hi
  have := spelled_ident hs (v := '[' :: i' ++ (v ++ y)) (by
    intro c v' he
    simp only [List.cons_append, List.cons.injEq] at he
    rw [← he.1]
    decide) (h1 _ _ (h2 y ws hy hw))
  simpa using this

/-- Formulas. -/
theorem clear_fml {d : Driver} {k : Cat} {T : Tr} (h : Clear k T) : Known d T →
    ∃ f ws, ReadsF k f ws ∧ FOk d f ∧ f.tree d.smap (formulaOf d) = renew d.smap T ∧ Spells T.print ws := by
  induction h with
  | @atom st k l r hl hr =>
    rintro ⟨k1, k2⟩
    obtain ⟨e1, w1, h1, h2, h3, h4, _⟩ := clear_expr hl k1
    obtain ⟨e2, w2, g1, g2, g3, g4, _⟩ := clear_expr hr k2
    cases k with
    | less =>
      refine ⟨.less e1 e2, _, .less h1 (w := "<".toList) ⟨"<", by decide, rfl⟩ g1, ⟨h2, g2⟩,
        by simp [Fml.tree, renew, h3, g3], ?_⟩
      simpa [Tr.print] using spells_infix (k := .less) ⟨"<", by decide, rfl⟩ h4 g4
    | greater =>
      refine ⟨.greater e1 e2, _, .greater h1 (w := ">".toList) ⟨">", by decide, rfl⟩ g1, ⟨h2, g2⟩,
        by simp [Fml.tree, renew, h3, g3], ?_⟩
      simpa [Tr.print] using spells_infix (k := .greater) ⟨">", by decide, rfl⟩ h4 g4
  | @ev st I c hI _ ih =>
    rintro ⟨k1, k2, k3⟩
    obtain ⟨a, b, a1, a2, a3, a4⟩ := clear_ival hI k1 k2
    obtain ⟨f, ws, h1, h2, h3, h4⟩ := ih k3
    obtain ⟨p1, p2, _⟩ := parens_read h1 h4
    refine ⟨.ev a b f, _, .ev (.inl rfl) (w := "ev_".toList) ⟨"ev_", by decide, rfl⟩ .comma p1,
      ⟨a1, a2, h2⟩, by simp [Fml.tree, renew, h3, a3], ?_⟩
    exact spells_timed (s := "ev_") ⟨'e', ['v', '_'], rfl, by decide, by decide⟩ a4 ⟨_, rfl⟩ p2
  | @alw st I c hI _ ih =>
    rintro ⟨k1, k2, k3⟩
    obtain ⟨a, b, a1, a2, a3, a4⟩ := clear_ival hI k1 k2
    obtain ⟨f, ws, h1, h2, h3, h4⟩ := ih k3
    obtain ⟨p1, p2, _⟩ := parens_read h1 h4
    refine ⟨.alw a b f, _, .alw (.inl rfl) (w := "alw_".toList) ⟨"alw_", by decide, rfl⟩ .comma p1,
      ⟨a1, a2, h2⟩, by simp [Fml.tree, renew, h3, a3], ?_⟩
    exact spells_timed (s := "alw_") ⟨'a', ['l', 'w', '_'], rfl, by decide, by decide⟩ a4 ⟨_, rfl⟩ p2
  | @untl st l I r hI _ _ ih1 ih2 =>
    rintro ⟨k1, k2, k3, k4⟩
    obtain ⟨a, b, a1, a2, a3, a4⟩ := clear_ival hI k1 k2
    obtain ⟨f, ws, h1, h2, h3, h4⟩ := ih1 k3
    obtain ⟨g, ws', g1, g2, g3, g4⟩ := ih2 k4
    obtain ⟨p1, _, p2⟩ := parens_read h1 h4
    obtain ⟨q1, q2, _⟩ := parens_read g1 g4
    refine ⟨.untl f a b g, _, .untl (k := .prim) (.inl rfl) (.one (k := .prim) (.inl rfl) p1)
      (w := "until_".toList) ⟨"until_", by decide, rfl⟩ .comma q1,
      ⟨a1, a2, h2, g2⟩, by simp [Fml.tree, renew, h3, g3, a3], ?_⟩
    have ht := spells_timed (s := "until_") ⟨'u', ['n', 't', 'i', 'l', '_'], rfl, by decide, by decide⟩ a4
      ⟨_, rfl⟩ q2
    intro v ws hv hw
    have := p2 _ _ (tail_cons _ (by decide)) (spelled_gap (ht v ws hv hw))
    simpa [Tr.print] using this
  | @not st k c hk _ ih =>
    intro k1
    obtain ⟨f, ws, h1, h2, h3, h4⟩ := ih k1
    exact ⟨.not f, _, .not hk (w := "not".toList) ⟨"not", by decide, rfl⟩ h1, h2,
      by simp [Fml.tree, renew, h3], spells_not h4⟩
  | @notAnd st c _ ih =>
    intro k1
    obtain ⟨f, ws, h1, h2, h3, h4⟩ := ih k1
    exact ⟨.not f, _, .notAnd (w := "not".toList) ⟨"not", by decide, rfl⟩ h1, h2,
      by simp [Fml.tree, renew, h3], spells_not h4⟩
  | @notImplies st st' l r _ _ ih1 ih2 =>
    rintro ⟨k1, k2⟩
    obtain ⟨f, ws, h1, h2, h3, h4⟩ := ih1 k1
    obtain ⟨g, ws', g1, g2, g3, g4⟩ := ih2 k2
    refine ⟨.not (.implies f g), _, .notImplies (w := "not".toList) ⟨"not", by decide, rfl⟩ h1
      (x := "=>".toList) ⟨"=>", by decide, rfl⟩ g1, ⟨h2, g2⟩,
      by simp [Fml.tree, renew, h3, g3], ?_⟩
    exact spells_not (spells_infix (k := .implies) ⟨"=>", by decide, rfl⟩ h4 g4)
  | one hk _ ih =>
    intro k1
    obtain ⟨f, ws, h1, h2⟩ := ih k1
    exact ⟨f, ws, .one hk h1, h2⟩
  | chain hk _ ih =>
    intro k1
    obtain ⟨f, ws, h1, h2⟩ := ih k1
    exact ⟨f, ws, .chain hk h1, h2⟩
  | all _ ih =>
    intro k1
    obtain ⟨f, ws, h1, h2⟩ := ih k1
    exact ⟨f, ws, .all h1, h2⟩
  | @or st k l r hk _ _ ih1 ih2 =>
    rintro ⟨k1, k2⟩
    obtain ⟨f, ws, h1, h2, h3, h4⟩ := ih1 k1
    obtain ⟨g, ws', g1, g2, g3, g4⟩ := ih2 k2
    exact ⟨.or f g, _, .or hk h1 (w := "or".toList) ⟨"or", by decide, rfl⟩ g1, ⟨h2, g2⟩,
      by simp [Fml.tree, renew, h3, g3], spells_infix (k := .or) ⟨"or", by decide, rfl⟩ h4 g4⟩
  | @implies st l r _ _ ih1 ih2 =>
    rintro ⟨k1, k2⟩
    obtain ⟨f, ws, h1, h2, h3, h4⟩ := ih1 k1
    obtain ⟨g, ws', g1, g2, g3, g4⟩ := ih2 k2
    exact ⟨.implies f g, _, .implies h1 (w := "=>".toList) ⟨"=>", by decide, rfl⟩ g1, ⟨h2, g2⟩,
      by simp [Fml.tree, renew, h3, g3], spells_infix (k := .implies) ⟨"=>", by decide, rfl⟩ h4 g4⟩
  | @and st l r _ _ ih1 ih2 =>
    rintro ⟨k1, k2⟩
    obtain ⟨f, ws, h1, h2, h3, h4⟩ := ih1 k1
    obtain ⟨g, ws', g1, g2, g3, g4⟩ := ih2 k2
    exact ⟨.and f g, _, .and h1 (w := "and".toList) ⟨"and", by decide, rfl⟩ g1, ⟨h2, g2⟩,
      by simp [Fml.tree, renew, h3, g3], spells_infix (k := .and) ⟨"and", by decide, rfl⟩ h4 g4⟩

end Props
end STLRom
