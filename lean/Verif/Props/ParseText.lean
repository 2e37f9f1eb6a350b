import Verif.Props.Parser
import Verif.Proofs.Blanked
import Verif.Proofs.Calls

/-!
# What texts mean

C40, C41, C46 and C61: which formula a text stands for, and what a text of several statements
does.  Formulas as one writes them are in `Spec.Fml`, the ways of writing one in `Spec.Grammar`,
statements in `Spec.Program`.
-/

namespace STLRom
namespace Props
open Scan Text Parse Spec

/-! ## C61: a text of several statements -/

/-- A text of statements is accepted, and parsing it does what they say, one after the other. -/
theorem C61_statements {d : Driver} {ss : List Stmt} {ws : List (List Char)} {text : List Char}
    (hne : ss ≠ []) (hok : ProgOk d d ss) (hr : ReadsProg ss ws) (ht : Spelled ws text) :
    Parses d text true (ss.foldl doStmt d) := by
  obtain ⟨n, hn⟩ := run_prog (p := start d text) (.inl rfl) rfl (fun h => absurd h hne)
    ⟨rfl, .inl ⟨rfl, rfl, ht⟩⟩ hok hr
  exact ⟨n, hn⟩

/-- The end of a declaration that is followed by statements. -/
theorem decl_then : ∀ (us : List String) {d : Driver} {names : List String} {p : PState} {v w : SVal}
    {ss : List Stmt} {ws : List (List Char)}
    (_ : Declared d names) (_ : ∀ s ∈ us, Declarable d s) (_ : Spelled (declRest us ++ ws) p.input)
    (_ : p.drv = d) (_ : p.stack = [(18, v), (2, w), (0, .none)]) (_ : p.look = none)
    (_ : ProgOk { d with smap := numbered (us.foldl declare names) }
      { d with smap := numbered (us.foldl declare names) } ss) (_ : ReadsProg ss ws),
    ∃ n, run n p = .accept (ss.foldl doStmt { d with smap := numbered (us.foldl declare names) })
  | [], d, names, p, v, w, ss, ws, hn, hd, hsp, hp, hst, hl, hok, hr => by
    simp only [List.foldl_nil, ← hn.1] at hok ⊢
    simp only [declRest, List.nil_append] at hsp
    obtain ⟨tr, hwr, hh⟩ := prog_follow hok hr
    have ha : At d (Suf ws) p ([(18, v), (2, w), (0, .none)], tr) :=
      ⟨hp, hst, .inl ⟨hl, lexed_words hsp hwr⟩⟩
    have h17 : shiftTo 18 (headSym tr) = none := by
      refine no_shift (l := [17]) (by decide +kernel) (by decide +kernel) ?_
      generalize headSym tr = a at hh
      revert a
      simp only [List.mem_cons, List.not_mem_nil, or_false, forall_eq_or_imp, forall_eq]
      decide
    have hm : Moves d ([(18, v), (2, w), (0, .none)], tr) ([(10, w), (0, .none)], tr) :=
      .tail (.single (.reduce (a := headSym tr) (by decide) rfl h17 rfl (by decide)
        (g := 8) (by decide +kernel) rfl rfl)) (.reduceC (by decide) (by decide +kernel) rfl
        (by decide) (g := 10) (by decide +kernel) rfl rfl)
    obtain ⟨q, h1, h2⟩ := moves_rounds hm ha
    obtain ⟨n, h3⟩ := run_prog (.inr ⟨_, rfl⟩) h2.stack (by simp) (at_ready h2 List.suffix_rfl hwr) hok hr
    exact rounds_run h1 h3
  | u :: us, d, names, p, v, w, ss, ws, hn, hd, hsp, hp, hst, hl, hok, hr => by
    obtain ⟨r1, hr1, hw1⟩ := spelled_cons hsp
    obtain ⟨r2, hr2, hw2⟩ := spelled_cons hr1
    have hu := hd u (by simp)
    have e1 := hw1 d _ (word_comma d)
    have e2 := hw2 d _ (word_name d hu.ident)
    have hstep : step p = .next { p with
        stack := (29, .none) :: p.stack
        look := none
        input := r1 } := by
      have h29 : shiftTo 18 Sym.COMMA = some 29 := by decide +kernel
      obtain ⟨f1, f2, f3⟩ := shiftTo_some h29
      unfold step
      simp only [hst]
      rw [if_neg (by decide), if_neg f1]
      simp only [hl, hp, e1]
      unfold withLook
      simp only [show (tokVal ⟨Sym.COMMA, none⟩).1 = Sym.COMMA from rfl]
      rw [if_neg f2, if_neg (by rw [f3]; decide), f3]
      rfl
    obtain ⟨q, w', g1, g2, g3, g4, g5⟩ := decl_one (p := { p with
        stack := (29, .none) :: p.stack
        look := none
        input := r1 }) (.inr rfl) hn hu hp rfl rfl e2
    rw [show goto 29 63 = 56 by decide +kernel, hst] at g3
    obtain ⟨qd, qs, ql, qi⟩ := q
    simp only at g2 g3 g4 g5
    subst g3
    have hq : step ⟨qd, [(56, w'), (29, .none), (18, v), (2, w), (0, .none)], ql, qi⟩ =
      .next ⟨qd, [(18, v), (2, w), (0, .none)], ql, qi⟩ := rfl
    obtain ⟨n, hn'⟩ := decl_then us (p := ⟨qd, [(18, v), (2, w), (0, .none)], ql, qi⟩)
      (declared_next hn) (fun s hs => declarable_next hn (hd s (by simp [hs]))) (g5 ▸ hr2) g2 rfl g4 hok hr
    obtain ⟨m, hm⟩ := rounds_run (.head hstep (g1.tail hq)) hn'
    exact ⟨m, hm⟩

/-- A text may begin with a declaration of signals; the statements after it are read with the
signals declared. -/
theorem C61_declared {d : Driver} {names : List String} {u : String} {us : List String} {ss : List Stmt}
    {ws : List (List Char)} {text : List Char} (hn : Declared d names)
    (hd : ∀ s ∈ u :: us, Declarable d s)
    (hok : ProgOk { d with smap := numbered ((u :: us).foldl declare names) }
      { d with smap := numbered ((u :: us).foldl declare names) } ss) (hr : ReadsProg ss ws)
    (ht : Spelled (signalWords u us ++ ws) text) :
    Parses d text true (ss.foldl doStmt { d with smap := numbered ((u :: us).foldl declare names) }) := by
  obtain ⟨r1, hr1, hw1⟩ := spelled_cons ht
  obtain ⟨r2, hr2, hw2⟩ := spelled_cons hr1
  have hu := hd u (by simp)
  have e1 := hw1 d _ (word_reserved d (s := "signal") (k := Sym.SIGNAL_DECL) (by decide))
  have e2 := hw2 d _ (word_name d hu.ident)
  have hstep : step (start d text) = .next ⟨d, [(2, .none), (0, .none)], none, r1⟩ := by
    have h2 : shiftTo 0 Sym.SIGNAL_DECL = some 2 := by decide +kernel
    obtain ⟨f1, f2, f3⟩ := shiftTo_some h2
    unfold step start
    simp only
    rw [if_neg (by decide), if_neg f1]
    simp only [e1]
    unfold withLook
    simp only [show (tokVal ⟨Sym.SIGNAL_DECL, none⟩).1 = Sym.SIGNAL_DECL from rfl]
    rw [if_neg f2, if_neg (by rw [f3]; decide), f3]
    rfl
  obtain ⟨q, w', g1, g2, g3, g4, g5⟩ := decl_one (p := ⟨d, [(2, .none), (0, .none)], none, r1⟩)
    (.inl rfl) hn hu rfl rfl rfl e2
  rw [show goto 2 63 = 17 by decide +kernel] at g3
  obtain ⟨qd, qs, ql, qi⟩ := q
  simp only at g2 g3 g4 g5
  subst g3
  have hq : step ⟨qd, [(17, w'), (2, .none), (0, .none)], ql, qi⟩ =
    .next ⟨qd, [(18, w'), (2, .none), (0, .none)], ql, qi⟩ := rfl
  obtain ⟨n, hn'⟩ := decl_then us (p := ⟨qd, [(18, w'), (2, .none), (0, .none)], ql, qi⟩)
    (declared_next hn) (fun s hs => declarable_next hn (hd s (by simp [hs]))) (g5 ▸ hr2) g2 rfl g4 hok hr
  obtain ⟨m, hm⟩ := rounds_run (.head hstep (g1.tail hq)) hn'
  exact ⟨m, hm⟩

/-- Every list of statements that makes sense can be written so: put a blank after every
word. -/
theorem C61_written {d : Driver} {ss : List Stmt} {ws : List (List Char)} (hok : ProgOk d d ss)
    (hr : ReadsProg ss ws) : Spelled ws (blanked ws) := by
  obtain ⟨ts, hw, _⟩ := prog_follow hok hr
  exact spelled_blanked hw (plain_prog hok hr)

/-! ## C40: fully parenthesised formulas -/

theorem words_s : ∀ e : SExp, ReadsS true e e.words
  | .num n => .num n
  | .sig x => .sig x
  | .abs e => by
    have := ReadsS.paren (.abs (.single (words_s e)))
    simpa only [SExp.words, List.cons_append, List.append_assoc, List.nil_append] using this
  | .add a b => by
    have := ReadsS.paren (.add (.single (words_s a)) (words_s b))
    simpa only [SExp.words, List.cons_append, List.append_assoc, List.nil_append] using this
  | .sub a b => by
    have := ReadsS.paren (.sub (.single (words_s a)) (words_s b))
    simpa only [SExp.words, List.cons_append, List.append_assoc, List.nil_append] using this
  | .mul a b => by
    have := ReadsS.paren (.mul (.single (words_s a)) (words_s b))
    simpa only [SExp.words, List.cons_append, List.append_assoc, List.nil_append] using this

/-- What is complete at its last word can stand anywhere. -/
theorem prim_unt {f : Fml} {ws : List (List Char)} (h : ReadsF .prim f ws) : ReadsF .unt f ws :=
  .one (k := .prim) (.inl rfl) h
theorem prim_chain {f : Fml} {ws : List (List Char)} (h : ReadsF .prim f ws) : ReadsF .chain f ws :=
  .chain (.inl rfl) (prim_unt h)
theorem prim_all {f : Fml} {ws : List (List Char)} (h : ReadsF .prim f ws) : ReadsF .all f ws :=
  .all (prim_chain h)

/-- The fully parenthesised text of a formula is one way of writing it. -/
theorem words_f : ∀ f : Fml, ReadsF .prim f f.words
  | .less a b => by
    have := ReadsF.paren (prim_all (.less (w := ['<']) (.single (words_s a)) ⟨"<", by decide, rfl⟩ (.single (words_s b))))
    simpa only [Fml.words, List.cons_append, List.append_assoc, List.nil_append] using this
  | .greater a b => by
    have := ReadsF.paren (prim_all (.greater (w := ['>']) (.single (words_s a)) ⟨">", by decide, rfl⟩ (.single (words_s b))))
    simpa only [Fml.words, List.cons_append, List.append_assoc, List.nil_append] using this
  | .not f => by
    have := ReadsF.paren (.all (.chain (.inr (.inl rfl)) (.one (k := .preOr) (.inr (.inl rfl))
      (.not (.inl rfl) ⟨"not", by decide, rfl⟩ (prim_unt (words_f f))))))
    simpa only [Fml.words, List.cons_append, List.append_assoc, List.nil_append] using this
  | .and f g => by
    have := ReadsF.paren (.and (prim_all (words_f f)) ⟨"and", by decide, rfl⟩ (prim_chain (words_f g)))
    simpa only [Fml.words, List.cons_append, List.append_assoc, List.nil_append] using this
  | .or f g => by
    have := ReadsF.paren (.all (.or (.inl rfl) (prim_unt (words_f f)) ⟨"or", by decide, rfl⟩
      (prim_chain (words_f g))))
    simpa only [Fml.words, List.cons_append, List.append_assoc, List.nil_append] using this
  | .implies f g => by
    have := ReadsF.paren (.all (.implies (prim_unt (words_f f)) ⟨"=>", by decide, rfl⟩
      (prim_chain (words_f g))))
    simpa only [Fml.words, List.cons_append, List.append_assoc, List.nil_append] using this
  | .ev a b f => by
    have := ReadsF.paren (prim_all (.ev (.inl rfl) ⟨"ev_", by decide, rfl⟩ (.comma (a := a) (b := b)) (words_f f)))
    simpa only [Fml.words, ivalWords, List.cons_append, List.append_assoc, List.nil_append] using this
  | .alw a b f => by
    have := ReadsF.paren (prim_all (.alw (.inl rfl) ⟨"alw_", by decide, rfl⟩ (.comma (a := a) (b := b)) (words_f f)))
    simpa only [Fml.words, ivalWords, List.cons_append, List.append_assoc, List.nil_append] using this
  | .untl f a b g => by
    have := ReadsF.paren (.all (.chain (.inl rfl) (.untl (k := .prim) (.inl rfl) (prim_unt (words_f f))
      ⟨"until_", by decide, rfl⟩ (.comma (a := a) (b := b)) (words_f g))))
    simpa only [Fml.words, ivalWords, List.cons_append, List.append_assoc, List.nil_append] using this
  | .ref s => .ref s

/-! ## C41: formulas with any choice of parentheses -/

/-- The driver with the name `s` defined to be `f`. -/
def defined (d : Driver) (s : String) (f : Fml) : Driver :=
  { d with formulas := d.formulas.set s (f.tree d.smap (formulaOf d)) }

/-- A text that writes the formula `f` in a way of `Spec.Grammar` is accepted and defines the
name to be the nodes of `f`; everything else stays. -/
theorem C41_grammar {d : Driver} {s : String} {f : Fml} {ws : List (List Char)} {text : List Char}
    (hs : Fresh d s) (hf : FOk d f) (hr : ReadsF .all f ws)
    (ht : Spelled (s.toList :: ":=".toList :: ws) text) :
    Parses d text true (defined d s f) :=
  C61_statements (ss := [.define s f]) (by simp) ⟨⟨hs, hf⟩, trivial⟩
    (by simpa using ReadsProg.cons (.define hr) .nil) ht

/-- A text stands for at most one formula: the grammar is not ambiguous. -/
theorem C41_unambiguous {d : Driver} {s : String} {f g : Fml} {ws : List (List Char)} (hs : Fresh d s)
    (hf : FOk d f) (hg : FOk d g) (hrf : ReadsF .all f ws) (hrg : ReadsF .all g ws) :
    f.tree d.smap (formulaOf d) = g.tree d.smap (formulaOf d) := by
  have ht := C61_written (ss := [.define s f]) (d := d) ⟨⟨hs, hf⟩, trivial⟩
    (by simpa using ReadsProg.cons (.define hrf) .nil)
  obtain ⟨b, d', _, hu⟩ := C60_total d (blanked (s.toList :: ":=".toList :: ws))
  have h1 := (hu _ _ (C41_grammar hs hf hrf ht)).2
  have h2 := (hu _ _ (C41_grammar hs hg hrg ht)).2
  have h3 : (d.formulas.set s (f.tree d.smap (formulaOf d))).lookup s =
      (d.formulas.set s (g.tree d.smap (formulaOf d))).lookup s := by
    rw [show d.formulas.set s (f.tree d.smap (formulaOf d)) = d'.formulas by rw [← h1]; rfl,
      show d.formulas.set s (g.tree d.smap (formulaOf d)) = d'.formulas by rw [← h2]; rfl]
  rw [Assoc.lookup_set, Assoc.lookup_set] at h3
  simpa using h3

/-- C40: the fully parenthesised text of a formula is accepted and defines the name to be the
nodes of the formula, whatever stands between the words. -/
theorem C40 {d : Driver} {s : String} {f : Fml} {text : List Char} (hs : Fresh d s) (hf : FOk d f)
    (ht : Spelled (s.toList :: ":=".toList :: f.words) text) :
    Parses d text true (defined d s f) :=
  C41_grammar hs hf (prim_all (words_f f)) ht

/-- In particular with one blank after every word. -/
theorem C40_blanks {d : Driver} {s : String} {f : Fml} (hs : Fresh d s) (hf : FOk d f) :
    Parses d (blanked (s.toList :: ":=".toList :: f.words)) true
      (defined d s f) :=
  C40 hs hf (C61_written (ss := [.define s f]) (d := d) ⟨⟨hs, hf⟩, trivial⟩
    (by simpa using ReadsProg.cons (.define (prim_all (words_f f))) .nil))

/-- The binary operators of formulas. -/
inductive Bin where
  | and
  | or
  | implies
  | untl (a b : Num)

/-- The formula `f op g`. -/
def Bin.mk : Bin → Fml → Fml → Fml
  | and, f, g => .and f g
  | or, f, g => .or f g
  | implies, f, g => .implies f g
  | untl a b, f, g => .untl f a b g

/-- How an operator is written. -/
inductive ReadsOp : Bin → List (List Char) → Prop where
  | and {w} : Key.and.Is w → ReadsOp .and [w]
  | or {w} : Key.or.Is w → ReadsOp .or [w]
  | implies {w} : Key.implies.Is w → ReadsOp .implies [w]
  | untl {w a b i} : Key.untl.Is w → ReadsI a b i → ReadsOp (.untl a b) (w :: i)

/-- How tightly C41 says the operators bind. -/
def Bin.rank : Bin → ℕ
  | and => 0
  | or => 1
  | implies => 2
  | untl _ _ => 3

/-- Whether `a op1 b op2 c` is `(a op1 b) op2 c` in the code. -/
def Bin.left : Bin → Bin → Bool
  | _, and => true
  | untl _ _, _ => true
  | _, _ => false

/-- `a op1 b op2 c` for any operands that are complete at their last word. -/
theorem reads_pair {p q : Bin} {f g h : Fml} {u v w x y : List (List Char)} (hp : ReadsOp p x)
    (hq : ReadsOp q y) (hf : ReadsF .prim f u) (hg : ReadsF .prim g v) (hh : ReadsF .prim h w) :
    ReadsF .all (if p.left q then q.mk (p.mk f g) h else p.mk f (q.mk g h)) (u ++ x ++ v ++ y ++ w) := by
  have e : ∀ {f ws ws'}, ReadsF .all f ws → ws = ws' → ReadsF .all f ws' := fun h he => he ▸ h
  cases hp with
  | and hw =>
    cases hq with
    | and hw' => exact e (.and (.and (prim_all hf) hw (prim_chain hg)) hw' (prim_chain hh)) (by simp)
    | or hw' => exact e (.and (prim_all hf) hw (.or (.inl rfl) (prim_unt hg) hw' (prim_chain hh))) (by simp)
    | implies hw' => exact e (.and (prim_all hf) hw (.implies (prim_unt hg) hw' (prim_chain hh))) (by simp)
    | untl hw' hi =>
      exact e (.and (prim_all hf) hw (.chain (.inl rfl) (.untl (k := .prim) (.inl rfl) (prim_unt hg) hw' hi hh)))
        (by simp)
  | or hw =>
    cases hq with
    | and hw' =>
      exact e (.and (.all (.or (.inl rfl) (prim_unt hf) hw (prim_chain hg))) hw' (prim_chain hh)) (by simp)
    | or hw' =>
      exact e (.all (.or (.inl rfl) (prim_unt hf) hw (.or (.inl rfl) (prim_unt hg) hw' (prim_chain hh)))) (by simp)
    | implies hw' =>
      exact e (.all (.or (.inl rfl) (prim_unt hf) hw (.implies (prim_unt hg) hw' (prim_chain hh)))) (by simp)
    | untl hw' hi =>
      exact e (.all (.or (.inl rfl) (prim_unt hf) hw
        (.chain (.inl rfl) (.untl (k := .prim) (.inl rfl) (prim_unt hg) hw' hi hh)))) (by simp)
  | implies hw =>
    cases hq with
    | and hw' =>
      exact e (.and (.all (.implies (prim_unt hf) hw (prim_chain hg))) hw' (prim_chain hh)) (by simp)
    | or hw' =>
      exact e (.all (.implies (prim_unt hf) hw (.or (.inl rfl) (prim_unt hg) hw' (prim_chain hh)))) (by simp)
    | implies hw' =>
      exact e (.all (.implies (prim_unt hf) hw (.implies (prim_unt hg) hw' (prim_chain hh)))) (by simp)
    | untl hw' hi =>
      exact e (.all (.implies (prim_unt hf) hw
        (.chain (.inl rfl) (.untl (k := .prim) (.inl rfl) (prim_unt hg) hw' hi hh)))) (by simp)
  | untl hw hi =>
    have h1 := ReadsF.untl (k := .prim) (.inl rfl) (prim_unt hf) hw hi hg
    have h1 : ReadsF .unt _ _ := h1
    cases hq with
    | and hw' => exact e (.and (.all (.chain (.inl rfl) h1)) hw' (prim_chain hh)) (by simp)
    | or hw' => exact e (.all (.or (.inl rfl) h1 hw' (prim_chain hh))) (by simp)
    | implies hw' => exact e (.all (.implies h1 hw' (prim_chain hh))) (by simp)
    | untl hw' hi' =>
      exact e (.all (.chain (.inl rfl) (.untl (k := .prim) (.inl rfl) h1 hw' hi' hh))) (by simp)

/-- The driver knows the names in the bounds of an operator. -/
def OpOk (d : Driver) : Bin → Prop
  | .untl a b => NumOk d a ∧ NumOk d b
  | _ => True

theorem reads_bin {p : Bin} {f g : Fml} {u v x : List (List Char)} (hp : ReadsOp p x)
    (hf : ReadsF .prim f u) (hg : ReadsF .prim g v) : ReadsF .all (p.mk f g) (u ++ x ++ v) := by
  have e : ∀ {f ws ws'}, ReadsF .all f ws → ws = ws' → ReadsF .all f ws' := fun h he => he ▸ h
  cases hp with
  | and hw => exact e (.and (prim_all hf) hw (prim_chain hg)) (by simp)
  | or hw => exact e (.all (.or (.inl rfl) (prim_unt hf) hw (prim_chain hg))) (by simp)
  | implies hw => exact e (.all (.implies (prim_unt hf) hw (prim_chain hg))) (by simp)
  | untl hw hi =>
    exact e (.all (.chain (.inl rfl) (.untl (k := .prim) (.inl rfl) (prim_unt hf) hw hi hg))) (by simp)

theorem fok_mk {d : Driver} {p : Bin} {f g : Fml} (hp : OpOk d p) (hf : FOk d f)
    (hg : FOk d g) : FOk d (p.mk f g) := by
  cases p with
  | and => exact ⟨hf, hg⟩
  | or => exact ⟨hf, hg⟩
  | implies => exact ⟨hf, hg⟩
  | untl a b => exact ⟨hp.1, hp.2, hf, hg⟩

/-- How two binary operators in a row group, for any operands complete at their last word. -/
theorem C41_pairs {d : Driver} {s : String} {p q : Bin} {f g h : Fml} {u v w x y : List (List Char)}
    {text : List Char} (hs : Fresh d s) (hp : ReadsOp p x) (hq : ReadsOp q y) (hp' : OpOk d p)
    (hq' : OpOk d q) (hf : ReadsF .prim f u) (hg : ReadsF .prim g v) (hh : ReadsF .prim h w)
    (hf' : FOk d f) (hg' : FOk d g) (hh' : FOk d h)
    (ht : Spelled (s.toList :: ":=".toList :: (u ++ x ++ v ++ y ++ w)) text) :
    Parses d text true (defined d s
      (if p.left q then q.mk (p.mk f g) h else p.mk f (q.mk g h))) := by
  refine C41_grammar hs ?_ (reads_pair hp hq hf hg hh) ht
  split
  · exact fok_mk hq' (fok_mk hp' hf' hg') hh'
  · exact fok_mk hp' hf' (fok_mk hq' hg' hh')

/-- Full statement (false, `C41_false`): `a op1 b op2 c` is `(a op1 b) op2 c` exactly if `op1`
binds at least as tightly as `op2`, where `until` binds tightest, then `=>`, `or`, `and`.
Missing: `=>` followed by `or`, and `or` or `=>` repeated; there the right pair is joined first. -/
theorem C41_partial {d : Driver} {s : String} {p q : Bin} {f g h : Fml} {u v w x y : List (List Char)}
    {text : List Char} (hs : Fresh d s) (hp : ReadsOp p x) (hq : ReadsOp q y) (hp' : OpOk d p)
    (hq' : OpOk d q) (hf : ReadsF .prim f u) (hg : ReadsF .prim g v) (hh : ReadsF .prim h w)
    (hf' : FOk d f) (hg' : FOk d g) (hh' : FOk d h)
    (ht : Spelled (s.toList :: ":=".toList :: (u ++ x ++ v ++ y ++ w)) text)
    (hpq : (p, q) ∉ [(.implies, .or), (.or, .or), (.implies, .implies)]) :
    Parses d text true (defined d s
      (if q.rank ≤ p.rank then q.mk (p.mk f g) h else p.mk f (q.mk g h))) := by
  have he : (p.left q = true) = (q.rank ≤ p.rank) := by
    cases p <;> cases q <;> simp [Bin.left, Bin.rank] at hpq ⊢
  have := C41_pairs hs hp hq hp' hq' hf hg hh hf' hg' hh' ht
  simpa only [he] using this

/-- A driver with three formulas. -/
def drv3 : Driver :=
  { Driver.init with
    smap := [("x", 1)]
    formulas := [("a", .atom .init .greater (.sig .init "x" [("x", 1)] none) (.const .init "" 1 none)),
      ("b", .atom .init .greater (.sig .init "x" [("x", 1)] none) (.const .init "" 2 none)),
      ("c", .atom .init .greater (.sig .init "x" [("x", 1)] none) (.const .init "" 3 none))] }

theorem fresh3 : Fresh drv3 "r" :=
  ⟨⟨⟨'r', [], rfl, by decide, by simp⟩, by decide⟩, rfl, rfl, rfl, rfl⟩

theorem ref3 : ∀ s ∈ ["a", "b", "c"], FOk drv3 (.ref s) := by
  intro s hs
  simp only [List.mem_cons, List.not_mem_nil, or_false] at hs
  rcases hs with rfl | rfl | rfl
  · exact ⟨⟨⟨'a', [], rfl, by decide, by simp⟩, by decide⟩, _, rfl⟩
  · exact ⟨⟨⟨'b', [], rfl, by decide, by simp⟩, by decide⟩, _, rfl⟩
  · exact ⟨⟨⟨'c', [], rfl, by decide, by simp⟩, by decide⟩, _, rfl⟩

/-- `a => b or c` is `a => (b or c)`, not `(a => b) or c`; `a or b or c` is `a or (b or c)` and
`a => b => c` is `a => (b => c)`, although these operators are declared to group to the left. -/
theorem C41_false : ∀ x ∈ [(Bin.implies, "=>", Bin.or, "or"), (.or, "or", .or, "or"),
      (.implies, "=>", .implies, "=>")],
    ¬ Parses drv3 (blanked ["r".toList, ":=".toList, ['a'], x.2.1.toList, ['b'], x.2.2.2.toList, ['c']]) true
      (defined drv3 "r"
        (if x.2.2.1.rank ≤ x.1.rank then x.2.2.1.mk (x.1.mk (.ref "a") (.ref "b")) (.ref "c")
          else x.1.mk (.ref "a") (x.2.2.1.mk (.ref "b") (.ref "c")))) := by
  intro x hx hP
  have key : ∀ x ∈ [(Bin.implies, "=>", Bin.or, "or"), (.or, "or", .or, "or"),
      (.implies, "=>", .implies, "=>")], ReadsOp x.1 [x.2.1.toList] ∧ ReadsOp x.2.2.1 [x.2.2.2.toList] ∧
        OpOk drv3 x.1 ∧ OpOk drv3 x.2.2.1 ∧ x.1.left x.2.2.1 = false ∧ x.2.2.1.rank ≤ x.1.rank ∧
        Fml.tree drv3.smap (formulaOf drv3) (x.2.2.1.mk (x.1.mk (.ref "a") (.ref "b")) (.ref "c")) ≠
          Fml.tree drv3.smap (formulaOf drv3) (x.1.mk (.ref "a") (x.2.2.1.mk (.ref "b") (.ref "c"))) := by
    intro x hx
    simp only [List.mem_cons, List.not_mem_nil, or_false] at hx
    rcases hx with rfl | rfl | rfl
    · exact ⟨.implies ⟨"=>", by decide, rfl⟩, .or ⟨"or", by decide, rfl⟩, trivial, trivial, rfl, by decide, by decide⟩
    · exact ⟨.or ⟨"or", by decide, rfl⟩, .or ⟨"or", by decide, rfl⟩, trivial, trivial, rfl, by decide, by decide⟩
    · exact ⟨.implies ⟨"=>", by decide, rfl⟩, .implies ⟨"=>", by decide, rfl⟩, trivial, trivial, rfl, by decide, by decide⟩
  obtain ⟨h1, h2, h3, h4, h5, h6, h7⟩ := key x hx
  have ha := ref3 "a" (by decide)
  have hb := ref3 "b" (by decide)
  have hc := ref3 "c" (by decide)
  have hr := reads_pair h1 h2 (.ref "a") (.ref "b") (.ref "c")
  rw [h5] at hr
  have hok : FOk drv3 (x.1.mk (.ref "a") (x.2.2.1.mk (.ref "b") (.ref "c"))) :=
    fok_mk h3 ha (fok_mk h4 hb hc)
  have ht := C61_written (ss := [.define "r" _]) (d := drv3) ⟨⟨fresh3, hok⟩, trivial⟩
    (by simpa using ReadsProg.cons (.define hr) .nil)
  have hT := C41_grammar fresh3 hok hr ht
  obtain ⟨b, d', _, hu⟩ := C60_total drv3
    (blanked ["r".toList, ":=".toList, ['a'], x.2.1.toList, ['b'], x.2.2.2.toList, ['c']])
  have e1 := (hu _ _ hP).2
  have e2 := (hu _ _ hT).2
  rw [← e2, if_pos h6] at e1
  have e3 := congrArg (fun d : Driver => d.formulas.lookup "r") e1
  simp only [defined, Assoc.lookup_set, if_true, Option.some.injEq] at e3
  exact h7 e3

/-- `ev_`, `alw_` take the smallest formula to their right. -/
theorem C41_temporal {d : Driver} {s : String} {p : Bin} {a b : Num} {f g : Fml} {t : List Char}
    {u v x i : List (List Char)} {text : List Char} (hs : Fresh d s) (hp : ReadsOp p x) (hp' : OpOk d p)
    (hi : ReadsI a b i) (ha : NumOk d a) (hb : NumOk d b) (hf : ReadsF .prim f u) (hg : ReadsF .prim g v)
    (hf' : FOk d f) (hg' : FOk d g)
    (ht : Spelled (s.toList :: ":=".toList :: t :: (i ++ u ++ x ++ v)) text) :
    (Key.ev.Is t → Parses d text true (defined d s
      (p.mk (.ev a b f) g))) ∧
    (Key.alw.Is t → Parses d text true (defined d s
      (p.mk (.alw a b f) g))) := by
  constructor
  · intro hk
    refine C41_grammar hs (fok_mk hp' ⟨ha, hb, hf'⟩ hg')
      (reads_bin hp (.ev (k := .prim) (.inl rfl) hk hi hf) hg) ?_
    simpa using ht
  · intro hk
    refine C41_grammar hs (fok_mk hp' ⟨ha, hb, hf'⟩ hg')
      (reads_bin hp (.alw (k := .prim) (.inl rfl) hk hi hf) hg) ?_
    simpa using ht

/-- `not` takes `until` and `=>`, but neither `or` nor `and`. -/
theorem C41_not {d : Driver} {s : String} {p : Bin} {f g : Fml} {t : List Char}
    {u v x : List (List Char)} {text : List Char} (hs : Fresh d s) (hp : ReadsOp p x) (hp' : OpOk d p)
    (hk : Key.not.Is t) (hf : ReadsF .prim f u) (hg : ReadsF .prim g v) (hf' : FOk d f) (hg' : FOk d g)
    (ht : Spelled (s.toList :: ":=".toList :: t :: (u ++ x ++ v)) text) :
    Parses d text true (defined d s
      (if 2 ≤ p.rank then .not (p.mk f g) else p.mk (.not f) g : Fml)) := by
  have hn : ReadsF .notOr (.not f) (t :: u) := .one (k := .preOr) (.inr (.inl rfl)) (.not (.inl rfl) hk (prim_unt hf))
  have e : ∀ {f ws ws'}, ReadsF .all f ws → ws = ws' → ReadsF .all f ws' := fun h he => he ▸ h
  refine C41_grammar hs ?_ ?_ ht
  · split
    · exact fok_mk hp' hf' hg'
    · exact fok_mk hp' hf' hg'
  · cases hp with
    | and hw => exact e (.and (.all (.chain (.inr (.inl rfl)) hn)) hw (prim_chain hg)) (by simp)
    | or hw => exact e (.all (.or (.inr rfl) hn hw (prim_chain hg))) (by simp)
    | implies hw =>
      exact e (.all (.chain (.inr (.inr rfl)) (.one (k := .preAnd) (.inr (.inr rfl))
        (.notImplies hk (prim_unt hf) hw (prim_chain hg))))) (by simp)
    | untl hw hi =>
      exact e (.all (.chain (.inr (.inl rfl)) (.one (k := .preOr) (.inr (.inl rfl)) (.not (.inl rfl) hk
        (.untl (k := .prim) (.inl rfl) (prim_unt hf) hw hi hg))))) (by simp)

/-- The operators of signal expressions. -/
def arith : List (Char × (SExp → SExp → SExp)) := [('+', .add), ('-', .sub), ('*', .mul)]

/-- `+`, `-` and `*` are at one level and group to the left. -/
theorem C41_arith {d : Driver} {s : String} {a b c e : SExp} {o1 o2 : Char × (SExp → SExp → SExp)}
    {w : List Char} {u1 u2 u3 u4 : List (List Char)} {text : List Char} (hs : Fresh d s) (h1 : o1 ∈ arith)
    (h2 : o2 ∈ arith) (hw : Key.less.Is w) (ha : ReadsS true a u1) (hb : ReadsS true b u2)
    (hc : ReadsS true c u3) (he : ReadsS true e u4) (ha' : SOk d a) (hb' : SOk d b) (hc' : SOk d c)
    (he' : SOk d e)
    (ht : Spelled (s.toList :: ":=".toList :: (u1 ++ [[o1.1]] ++ u2 ++ [[o2.1]] ++ u3 ++ [w] ++ u4)) text) :
    Parses d text true (defined d s
      (Fml.less (o2.2 (o1.2 a b) c) e)) := by
  have key : ∀ o ∈ arith, ∀ {a b u v}, ReadsS false a u → ReadsS true b v →
      ReadsS false (o.2 a b) (u ++ [o.1] :: v) ∧ (SOk d a → SOk d b → SOk d (o.2 a b)) := by
    intro o ho a b u v h h'
    simp only [arith, List.mem_cons, List.not_mem_nil, or_false] at ho
    rcases ho with rfl | rfl | rfl
    · exact ⟨.add h h', fun x y => ⟨x, y⟩⟩
    · exact ⟨.sub h h', fun x y => ⟨x, y⟩⟩
    · exact ⟨.mul h h', fun x y => ⟨x, y⟩⟩
  obtain ⟨k1, k2⟩ := key o1 h1 (.single ha) hb
  obtain ⟨k3, k4⟩ := key o2 h2 k1 hc
  refine C41_grammar hs ⟨k4 (k2 ha' hb') hc', he'⟩ (prim_all (.less k3 hw (.single he))) ?_
  simpa using ht

/-! ## C46: references -/

/-- One call or parse that may follow: any call of the interface, except that no parameter has
the empty name (`set_param("", x)` would overwrite the literal constants), or the parse of any
text. -/
inductive Next : Driver → Driver → Prop where
  | call {d : Driver} (g : Globals) (op : DrvOp) : d.params.lookup "" = none → (∀ x, op ≠ .setParam "" x) →
      Next d (d.step g op).2.1
  | parse {d d' : Driver} {text : List Char} {b : Bool} : Parses d text b d' → Next d d'

theorem forgetB_eq_forget (T : Tr) : T.forgetB false = forget T := by
  induction T <;> simp_all [Tr.forgetB, forget]

/-- What formulas say, and nothing that evaluation computes, is kept. -/
theorem C46_kept {d d' : Driver} (h : Relation.ReflTransGen Next d d') {r : String} {T : Tr}
    (hT : d.formulas.lookup r = some T) : ∃ T', d'.formulas.lookup r = some T' ∧ forget T' = forget T := by
  induction h with
  | refl => exact ⟨T, hT, rfl⟩
  | @tail d1 d2 _ h ih =>
    obtain ⟨T1, h1, h2⟩ := ih
    cases h with
    | parse hp => exact ⟨T1, (C45_partial hp).formulas _ _ h1, h2⟩
    | call g op hp hop =>
      rw [← h2]
      clear h2 hT
      cases op with
      | addSample row =>
        simp only [Driver.step, tryCall]
        unfold Driver.addSample
        cases Monitor.pushRow d1.data d1.smap.length row with
        | error f => exact ⟨T1, h1, rfl⟩
        | ok x => exact ⟨T1, h1, rfl⟩
      | setParam n x =>
        have hl : (d1.setParam n x).formulas.lookup r = (d1.formulas.lookup r).map (Tr.setParam n x) :=
          lookup_map d1.formulas _ r
        rw [h1] at hl
        refine ⟨_, hl, ?_⟩
        have := Tr.forgetB_setParam false n x (fun hn => absurd (by rw [hn]) (hop x)) T1
        rwa [forgetB_eq_forget, forgetB_eq_forget] at this
      | setSemantics s =>
        simp only [Driver.step, tryCall]
        unfold Driver.setSemantics
        cases Monitor.parseSemantics s with
        | error f => exact ⟨T1, h1, rfl⟩
        | ok x => exact ⟨T1, h1, rfl⟩
      | setInterpol s =>
        simp only [Driver.step, tryCall]
        unfold Driver.setInterpol
        cases Monitor.parseInterpol s with
        | error f => exact ⟨T1, h1, rfl⟩
        | ok x => exact ⟨T1, h1, rfl⟩
      | onlineRob id t0 =>
        simp only [Driver.step]
        unfold Driver.getOnlineRob
        split_ifs with hd
        · exact ⟨T1, h1, rfl⟩
        · cases hi : d1.formulas.lookup id with
          | none => exact ⟨T1, h1, rfl⟩
          | some T =>
            simp only
            have hpre := Tr.forgetB_prepare (b := false) (P := d1.params) (by rw [hp]; simp) t0 t0 T
            cases hrun : Monitor.run3 ⟨g.B, d1.sem, d1.ip, d1.data, d1.params⟩
                (Monitor.prepare d1.params t0 t0 T) with
            | error f =>
              simp only [Assoc.lookup_set]
              by_cases he : r = id
              · subst he
                rw [hi] at h1
                cases h1
                refine ⟨_, if_pos rfl, ?_⟩
                rwa [forgetB_eq_forget, forgetB_eq_forget] at hpre
              · exact ⟨T1, by rw [if_neg he]; exact h1, rfl⟩
            | ok y =>
              obtain ⟨T', r', lo, up⟩ := y
              simp only [Assoc.lookup_set]
              by_cases he : r = id
              · subst he
                rw [hi] at h1
                cases h1
                refine ⟨_, if_pos rfl, ?_⟩
                have := (forgetB_run3 (b := false) hrun).trans hpre
                rwa [forgetB_eq_forget, forgetB_eq_forget] at this
              · exact ⟨T1, by rw [if_neg he]; exact h1, rfl⟩
      | getParam n => exact ⟨T1, h1, rfl⟩
      | getSemantics => exact ⟨T1, h1, rfl⟩
      | getInterpol => exact ⟨T1, h1, rfl⟩

/-- A name stands for the formula it has when it is read. -/
theorem C46_reference {d : Driver} {s : String} {T : Tr} (h : d.formulas.lookup s = some T) (m : Assoc ℕ) :
    forget ((Fml.ref s).tree m (formulaOf d)) = forget T := by
  have : (Fml.ref s).tree m (formulaOf d) = T.clone := by
    simp only [Fml.tree, formulaOf, h, Option.getD_some]
  rw [this, forget_clone]

/-- C46: a formula whose text uses names of formulas says afterwards, and after any further calls
and parses, what it said when it was read, the names standing for the formulas they had then.
Missing: that the copies share no memory with the originals (the model has trees, not
pointers). -/
theorem C46_partial {d : Driver} {r : String} {f : Fml} {ws : List (List Char)} {text : List Char}
    (hs : Fresh d r) (hf : FOk d f) (hr : ReadsF .all f ws)
    (ht : Spelled (r.toList :: ":=".toList :: ws) text) :
    ∃ d1, Parses d text true d1 ∧ ∀ d', Relation.ReflTransGen Next d1 d' →
      ∃ T', d'.formulas.lookup r = some T' ∧ forget T' = forget (f.tree d.smap (formulaOf d)) := by
  refine ⟨_, C41_grammar hs hf hr ht, fun d' h => C46_kept h ?_⟩
  simp only [defined, Assoc.lookup_set, if_true]

/-! ## Examples -/

/-- `a and not b until_[0, 2] c or (a)` -/
def text3 : List (List Char) :=
  ["a", "and", "not", "b", "until_", "[", "0", ",", "2", "]", "c", "or", "(", "a", ")"].map (·.toList)

example : ReadsF .all (.and (.ref "a") (.or (.not (.untl (.ref "b") (.lit ⟨false, [0], []⟩)
    (.lit ⟨false, [2], []⟩) (.ref "c"))) (.ref "a"))) text3 :=
  .and (u := ["a".toList]) (prim_all (.ref "a")) ⟨"and", by decide, rfl⟩
    (.or (k := .notOr) (u := "not".toList :: "b".toList :: "until_".toList ::
        ([['['], ['0'], [','], ['2'], [']']] ++ ["c".toList])) (.inr rfl)
      (.one (k := .preOr) (.inr (.inl rfl)) (.not (.inl rfl) ⟨"not", by decide, rfl⟩
        (.untl (k := .prim) (u := ["b".toList]) (i := [['['], ['0'], [','], ['2'], [']']])
          (.inl rfl) (prim_unt (.ref "b")) ⟨"until_", by decide, rfl⟩ .comma (.ref "c"))))
      ⟨"or", by decide, rfl⟩ (prim_chain (.paren (prim_all (.ref "a")))))

example : FOk drv3 (.and (.ref "a") (.or (.not (.untl (.ref "b") (.lit ⟨false, [0], []⟩)
    (.lit ⟨false, [2], []⟩) (.ref "c"))) (.ref "a"))) :=
  ⟨ref3 "a" (by decide), ⟨⟨by simp [NumOk], by simp [NumOk], ref3 "b" (by decide), ref3 "c" (by decide)⟩,
    ref3 "a" (by decide)⟩⟩

example : Fresh drv3 "r" := fresh3

/-- A text with every kind of statement. -/
def prog3 : List Stmt :=
  [.params ("p", ⟨false, [1], [5]⟩) [("q", ⟨true, [], [2, 5]⟩)],
    .define "r" (.alw (.lit ⟨false, [0], []⟩) (.par "p") (.greater (.sig "x") (.num (.par "q")))),
    .define "u" (.not (.ref "r")),
    .tests "T" "trace.csv".toList (some (⟨false, [1, 0], []⟩, true))
      (.full "T1" [("p", ⟨false, [2], []⟩)] (.ref "u") "good".toList "bad".toList true) [.again "T1" []]]

example : ProgOk drv3 drv3 prog3 := by
  have hn : ∀ s ∈ ["p", "q", "r", "u", "T", "T1", "x"], Name s := by
    intro s hs
    have key : ∀ s ∈ ["p", "q", "r", "u", "T", "T1", "x"], (∃ c w, s.toList = c :: w ∧ c.isAlpha = true ∧
      ∀ e ∈ w, e.isAlphanum = true ∨ e = '_') := by
      intro s hs
      simp only [List.mem_cons, List.not_mem_nil, or_false] at hs
      rcases hs with rfl | rfl | rfl | rfl | rfl | rfl | rfl
      all_goals exact ⟨_, _, rfl, by decide, by decide⟩
    refine ⟨key s hs, ?_⟩
    revert s
    decide
  refine ⟨?_, ⟨⟨hn "r" (by decide), rfl, rfl, rfl, rfl⟩, ?_⟩, ⟨⟨hn "u" (by decide), rfl, rfl, rfl, rfl⟩, ?_⟩,
    ⟨⟨hn "T" (by decide), rfl, rfl, rfl, rfl⟩, by unfold QuoteOk; decide, by simp, ⟨⟨hn "T1" (by decide), rfl, rfl, rfl, rfl⟩,
      ?_, ?_, by unfold QuoteOk; decide, by unfold QuoteOk; decide⟩, ⟨hn "T1" (by decide), rfl, rfl, rfl, ⟨_, rfl⟩, by simp [AssignOk]⟩, trivial⟩, trivial⟩
  · intro p hp
    simp only [List.mem_cons, List.not_mem_nil, or_false] at hp
    rcases hp with rfl | rfl
    · exact ⟨.inl ⟨hn "p" (by decide), rfl, rfl, rfl, rfl⟩, by simp⟩
    · exact ⟨.inl ⟨hn "q" (by decide), rfl, rfl, rfl, rfl⟩, by simp⟩
  · exact ⟨by simp [NumOk], ⟨hn "p" (by decide), rfl, _, rfl⟩, ⟨hn "x" (by decide), rfl, rfl, 0, rfl⟩,
      ⟨hn "q" (by decide), rfl, _, rfl⟩⟩
  · exact ⟨hn "r" (by decide), _, rfl⟩
  · intro p hp
    simp only [List.mem_cons, List.not_mem_nil, or_false] at hp
    subst hp
    exact ⟨.inr ⟨hn "p" (by decide), rfl, _, rfl⟩, by simp⟩
  · exact ⟨hn "u" (by decide), _, rfl⟩

example : ∃ ws, ReadsProg prog3 ws :=
  ⟨_, .cons .params (.cons (.define (prim_all (words_f _))) (.cons (.define (prim_all (words_f _)))
    (.cons (.tests (.full (prim_all (words_f _))) (.cons .again .nil)) .nil)))⟩

example : Declared { Driver.init with smap := [("x", 1)] } ["x"] ∧
    Declarable { Driver.init with smap := [("x", 1)] } "y" :=
  ⟨⟨by decide, by decide⟩, ⟨⟨'y', [], rfl, by decide, by simp⟩, by decide, rfl, rfl, fun _ => rfl⟩⟩

example : ReadsOp (.untl (.lit ⟨false, [0], []⟩) (.par "p")) ("U".toList :: [['['], ['0'], ['p'], [']']]) ∧
    ReadsOp .and ["&".toList] :=
  ⟨.untl ⟨"U", by decide, rfl⟩ .plain, .and ⟨"&", by decide, rfl⟩⟩

example : (Bin.or, Bin.and) ∉ [(Bin.implies, Bin.or), (.or, .or), (.implies, .implies)] := by simp

example : ReadsS true (.mul (.sig "x") (.num (.par "p"))) (SExp.mul (.sig "x") (.num (.par "p"))).words ∧
    SOk { drv3 with params := [("p", 2)] } (.mul (.sig "x") (.num (.par "p"))) := by
  refine ⟨words_s _, ⟨⟨⟨'x', [], rfl, by decide, by simp⟩, by decide⟩, rfl, rfl, 0, rfl⟩, ?_⟩
  exact ⟨⟨⟨'p', [], rfl, by decide, by simp⟩, by decide⟩, rfl, 2, rfl⟩

/-- The text of a snapshot, and a call after it. -/
example : Next drv3 (drv3.setParam "p" 3) := .call .init (.setParam "p" 3) rfl (by simp)

end Props
end STLRom
