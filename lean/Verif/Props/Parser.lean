import Verif.Proofs.Words
import Verif.Props.Tools

/-!
# What a parse does, whatever the text (C60, C43, C45)

`Parses d text b d'` of `Verif.Model.Parser` says that `parse_string` on the driver `d` returns
`b` and leaves the driver `d'`.
-/

namespace STLRom
namespace Props
open Scan Text Parse

/-! ## C60: every parse ends -/

theorem run_stable {n : ℕ} {p : PState} {r : Step} (h : run n p = r) (hr : ∀ q, r ≠ .next q) :
    ∀ m, n ≤ m → run m p = r := by
  induction n generalizing p with
  | zero => exact absurd h.symm (hr p)
  | succ n ih =>
    intro m hm
    obtain ⟨m, rfl⟩ : ∃ k, m = k + 1 := ⟨m - 1, by omega⟩
    rw [run] at h ⊢
    cases hs : step p with
    | next q =>
      simp only [hs] at h ⊢
      exact ih h m (by omega)
    | accept d => simpa only [hs] using h
    | abort d => simpa only [hs] using h
    | ub => simpa only [hs] using h

theorem start_measure (d : Driver) (text : List Char) :
    measure (start d text) = 10 * text.length + 2 := by
  have h1 : toks none text = text.length := rfl
  have h2 : wt [(0, .none)] = 1 := by decide +kernel
  have h3 : bonus [(0, .none)] = 0 := rfl
  rw [measure_of (p := start d text) (s := 0) rfl (by decide)]
  simp only [start]
  rw [h1, h2, h3]
  omega

/-- Whatever the text and the driver, the parser stops, within `10 * length + 3` rounds. -/
theorem C60_stops (d : Driver) (text : List Char) :
    ∃ d', run (10 * text.length + 3) (start d text) = .accept d' ∨
      run (10 * text.length + 3) (start d text) = .abort d' := by
  obtain ⟨d', h, _⟩ := run_ends _ (inv_start d text) (start_measure d text).le
  exact ⟨d', h⟩

/-- The result is one answer and one driver. -/
theorem C60_total (d : Driver) (text : List Char) :
    ∃ b d', Parses d text b d' ∧ ∀ b' d'', Parses d text b' d'' → b' = b ∧ d'' = d' := by
  have huniq : ∀ (b b' : Bool) (d' d'' : Driver), Parses d text b d' → Parses d text b' d'' →
      b' = b ∧ d'' = d' := by
    intro b b' d' d'' ⟨n, h⟩ ⟨n', h'⟩
    have k : ∀ (b : Bool) (d : Driver) q, (if b then Step.accept d else .abort d) ≠ .next q := by
      intro b d q; cases b <;> simp
    have e1 := run_stable h (k b d') (max n n') (le_max_left _ _)
    have e2 := run_stable h' (k b' d'') (max n n') (le_max_right _ _)
    rw [e1] at e2
    cases b <;> cases b' <;> simp at e2 <;> simp [e2]
  obtain ⟨d', h | h⟩ := C60_stops d text
  · exact ⟨true, d', ⟨_, h⟩, fun b' d'' h' => huniq true b' d' d'' ⟨_, h⟩ h'⟩
  · exact ⟨false, d', ⟨_, h⟩, fun b' d'' h' => huniq false b' d' d'' ⟨_, h⟩ h'⟩

/-- No action reads a member of the value union other than the one its symbol stores, and the
stack never runs out. -/
theorem C60_defined (d : Driver) (text : List Char) (n : ℕ) : run n (start d text) ≠ .ub := by
  intro h
  have h1 := run_stable h (by simp) (max n (10 * text.length + 3)) (le_max_left _ _)
  obtain ⟨d', h2 | h2⟩ := C60_stops d text
  · have := run_stable h2 (by simp) (max n (10 * text.length + 3)) (le_max_right _ _)
    rw [h1] at this; simp at this
  · have := run_stable h2 (by simp) (max n (10 * text.length + 3)) (le_max_right _ _)
    rw [h1] at this; simp at this

/-- A text and its result, as a test. -/
def parsed (d : Driver) (text : List Char) : Bool × Driver :=
  match run (10 * text.length + 3) (start d text) with
  | .accept d' => (true, d')
  | .abort d' => (false, d')
  | _ => (false, d)

theorem parsed_spec (d : Driver) (text : List Char) :
    Parses d text (parsed d text).1 (parsed d text).2 := by
  unfold parsed
  obtain ⟨d', h | h⟩ := C60_stops d text
  · exact ⟨10 * text.length + 3, by rw [h]; rfl⟩
  · exact ⟨10 * text.length + 3, by rw [h]; rfl⟩

theorem parses_of {d : Driver} {text : List Char} {b : Bool} {P : Driver → Prop}
    (h : (parsed d text).1 = b) (hp : P (parsed d text).2) : ∃ d', Parses d text b d' ∧ P d' :=
  ⟨_, h ▸ parsed_spec d text, hp⟩

example : (parsed Driver.init "signal x\nphi := x[t] > 1".toList).1 = true := by decide +kernel
example : (parsed Driver.init "signal x\nphi := x[t] > 1 )".toList).1 = false := by decide +kernel

/-! ## C45: what a parse, failed or not, leaves alone -/

theorem parses_effects {d d' : Driver} {text : List Char} {b : Bool} (h : Parses d text b d') :
    Relation.ReflTransGen (Effect d) d d' := by
  obtain ⟨d1, h1, h2⟩ := run_ends _ (inv_start d text) (start_measure d text).le
  have : Parses d text true d1 ∨ Parses d text false d1 := by
    rcases h1 with h1 | h1
    · exact .inl ⟨_, h1⟩
    · exact .inr ⟨_, h1⟩
  obtain ⟨b0, d0, _, hu⟩ := C60_total d text
  have e1 := (hu _ _ h).2
  rcases this with h3 | h3
  · rw [e1, ← (hu _ _ h3).2]; exact h2
  · rw [e1, ← (hu _ _ h3).2]; exact h2

/-- What every parse keeps: the rows of data, the semantics and the interpolation; every
formula that was defined and every signal's index; and the names of the parameters. -/
structure Kept (d d' : Driver) : Prop where
  data : d'.data = d.data
  sem : d'.sem = d.sem
  ip : d'.ip = d.ip
  formulas : ∀ s T, d.formulas.lookup s = some T → d'.formulas.lookup s = some T
  params : ∀ s, (d.params.lookup s).isSome → (d'.params.lookup s).isSome
  signals : ∀ s i, d.smap.lookup s = some i → d'.smap.lookup s = some i

theorem kept_of_effect {d0 d d' : Driver} (hk : Kept d0 d) (h : Effect d0 d d') : Kept d0 d' := by
  cases h with
  | none => exact hk
  | formula s T hs =>
    refine ⟨hk.data, hk.sem, hk.ip, fun s' T' h => ?_, hk.params, hk.signals⟩
    rw [Assoc.lookup_set]
    split_ifs with he
    · rw [he, hs] at h; simp at h
    · exact hk.formulas s' T' h
  | param s x =>
    refine ⟨hk.data, hk.sem, hk.ip, hk.formulas, fun s' h => ?_, hk.signals⟩
    rw [Assoc.lookup_set]
    split_ifs
    · rfl
    · exact hk.params s' h
  | signal s hs =>
    refine ⟨hk.data, hk.sem, hk.ip, hk.formulas, hk.params, fun s' i h => ?_⟩
    rw [Assoc.lookup_set]
    have := hk.signals s' i h
    split_ifs with he
    · rw [he, hs] at this; simp at this
    · exact this
  | tests _ h1 h2 h3 h4 h5 h6 =>
    exact ⟨h4.trans hk.data, h5.trans hk.sem, h6.trans hk.ip, fun s T h => h1 ▸ hk.formulas s T h,
      fun s h => h2 ▸ hk.params s h, fun s i h => h3 ▸ hk.signals s i h⟩

/-- Full statement (false, `C45_false`): a parse that returns `false` leaves formulas,
parameters and signals as they were.  Missing: statements read before the error stay in force,
so new names may have been added and parameters may have new values. -/
theorem C45_partial {d d' : Driver} {text : List Char} {b : Bool} (h : Parses d text b d') :
    Kept d d' := by
  have he := parses_effects h
  clear h
  induction he with
  | refl => exact ⟨rfl, rfl, rfl, fun _ _ h => h, fun _ h => h, fun _ _ h => h⟩
  | tail _ he ih => exact kept_of_effect ih he

/-- A failed parse can define the very formula whose text is wrong, change a parameter, and
declare a signal. -/
theorem C45_false :
    (∃ d', Parses Driver.init "signal x, y : ".toList false d' ∧ d'.smap = [("x", 1), ("y", 2)]) ∧
    (∃ d', Parses { Driver.init with params := [("p", 3)] } "param p = 5, q".toList false d' ∧
      d'.params = [("p", 5)]) ∧
    (∃ d', Parses { Driver.init with smap := [("x", 1)] } "phi := x[t] > 1 )".toList false d' ∧
      d'.formulas = [("phi", .atom .init .greater (.sig .init "x" [("x", 1)] none) (mkConst "1"))]) := by
  exact ⟨parses_of (by decide +kernel) (by decide +kernel),
    parses_of (by decide +kernel) (by decide +kernel), parses_of (by decide +kernel) (by decide +kernel)⟩

/-! ## C43: signals are numbered in order of declaration -/

theorem set_numbered {names : List String} {s : String} (hs : s ∉ names) :
    Assoc.set (numbered names) s (names.length + 1) = numbered (names ++ [s]) := by
  have : ∀ (names : List String) (k : ℕ), s ∉ names →
      Assoc.set (names.zipIdx k) s (names.length + k) = (names ++ [s]).zipIdx k := by
    intro names
    induction names with
    | nil => intro k _; simp [Assoc.set]
    | cons a l ih =>
      intro k h
      simp only [List.mem_cons, not_or] at h
      simp only [List.zipIdx_cons, Assoc.set, List.length_cons, List.cons_append]
      rw [if_neg (fun e => h.1 e.symm), ← ih (k + 1) h.2]
      congr 2
      omega
  exact this names 1 hs

theorem lookup_numbered {names : List String} {s : String} (h : (numbered names).lookup s = none) :
    s ∉ names := by
  intro hm
  rw [List.lookup_eq_none_iff] at h
  obtain ⟨i, hi, rfl⟩ := List.getElem_of_mem hm
  have := h (names[i], i + 1) (mem_numbered.2 ⟨by omega, by simp [hi]⟩)
  simp at this

/-- The signals of `d` are `names`, numbered from 1 in that order. -/
def Declared (d : Driver) (names : List String) : Prop := d.smap = numbered names ∧ names.Nodup

/-- Every parse, failed or not, keeps the numbering: the old names keep their places and new
ones follow. -/
theorem C43_numbered {d d' : Driver} {text : List Char} {b : Bool} {names : List String}
    (hd : Declared d names) (h : Parses d text b d') : ∃ new, Declared d' (names ++ new) := by
  have he := parses_effects h
  clear h
  induction he with
  | refl => exact ⟨[], by simpa using hd⟩
  | tail _ he ih =>
    obtain ⟨new, h1, h2⟩ := ih
    cases he with
    | none => exact ⟨new, h1, h2⟩
    | formula s T _ => exact ⟨new, h1, h2⟩
    | param s x => exact ⟨new, h1, h2⟩
    | signal s hs =>
      rw [h1] at hs
      have hm := lookup_numbered hs
      refine ⟨new ++ [s], ?_, ?_⟩
      · change Assoc.set _ s _ = _
        rw [h1, ← List.append_assoc, ← set_numbered hm]
        congr 1
        simp [numbered]
      · rw [← List.append_assoc]
        exact List.nodup_append.2 ⟨h2, by simp, by
          intro a ha b hb
          rw [List.mem_singleton.1 hb]
          rintro rfl
          exact hm ha⟩
    | tests _ _ _ h3 => exact ⟨new, h3.trans h1, h2⟩

/-- Drivers made by a sequence of parses. -/
inductive Built : Driver → Prop where
  | new : Built Driver.init
  | parse {d d' text b} : Built d → Parses d text b d' → Built d'

/-- So after any sequence of parses of a new driver. -/
theorem C43_history {d : Driver} (h : Built d) : ∃ names, Declared d names := by
  induction h with
  | new => exact ⟨[], rfl, by simp⟩
  | parse _ h ih =>
    obtain ⟨names, hd⟩ := ih
    obtain ⟨new, hn⟩ := C43_numbered hd h
    exact ⟨_, hn⟩

example : Declared { Driver.init with smap := [("x", 1), ("y", 2)] } ["x", "y"] :=
  ⟨by decide, by decide⟩

/-- The words after the first name of a declaration. -/
def declRest : List String → List (List Char)
  | [] => []
  | u :: us => ",".toList :: u.toList :: declRest us

/-- The words of `signal u, ...`. -/
def signalWords (u : String) (us : List String) : List (List Char) :=
  "signal".toList :: u.toList :: declRest us

/-- A name that can stand in a declaration of signals: an identifier that is no reserved word
and names no formula, parameter or, if it is new, test. -/
structure Declarable (d : Driver) (s : String) : Prop where
  ident : IdentWord s.toList
  word : reserved.lookup s = none
  formula : d.formulas.lookup s = none
  param : d.params.lookup s = none
  test : d.smap.lookup s = none → d.stlTests.lookup s = none

/-- A name is added at the end unless it is there. -/
def declare (names : List String) (s : String) : List String :=
  if s ∈ names then names else names ++ [s]

theorem numbered_some {names : List String} {s : String} (h : s ∈ names) :
    ∃ i, (numbered names).lookup s = some i := by
  cases hl : (numbered names).lookup s with
  | none => exact absurd h (lookup_numbered hl)
  | some i => exact ⟨i, rfl⟩

theorem numbered_none {names : List String} {s : String} (h : s ∉ names) :
    (numbered names).lookup s = none := by
  rw [List.lookup_eq_none_iff]
  rintro ⟨s', i⟩ hm
  obtain ⟨_, h2⟩ := mem_numbered.1 hm
  rw [bne_iff_ne]
  rintro rfl
  exact h (List.mem_of_getElem? h2)

theorem at_none {p : PState} {d : Driver} {P : List Char → ℕ → Prop} {c : Cfg} (h : At d P p c)
    (hl : p.look = none) : Lexed d P p.input c.2 := by
  rcases h.toks with ⟨_, h⟩ | ⟨_, h⟩ | ⟨_, _, _, h, _⟩
  · exact h
  · rw [hl] at h; simp at h
  · rw [hl] at h; simp at h

/-- One name of a declaration. -/
theorem decl_one {d : Driver} {names : List String} {u : String} {p : PState} {s : ℕ} {v : SVal}
    {st : List (ℕ × SVal)} {rest : List Char} (hs : s = 2 ∨ s = 29) (hn : Declared d names)
    (hu : Declarable d u) (hp : p.drv = d) (hst : p.stack = (s, v) :: st) (hl : p.look = none)
    (hx : lex d p.input = (identTok d u, rest)) :
    ∃ q w, Rounds p q ∧ q.drv = { d with smap := numbered (declare names u) } ∧
      q.stack = (goto s 63, w) :: (s, v) :: st ∧ q.look = none ∧ q.input = rest := by
  have hw : step p = withLook { p with
      look := some (tokVal (identTok d u))
      input := rest } s (yyPact.getD s 0) (tokVal (identTok d u)) := by
    unfold step
    simp only [hst]
    rcases hs with rfl | rfl
    all_goals
      rw [if_neg (by decide), if_neg (by decide +kernel)]
      simp only [hl, hp, hx]
  by_cases hm : u ∈ names
  · obtain ⟨i, hi⟩ := numbered_some hm
    have ht : identTok d u = ⟨Sym.SIGNAL_ID, some u⟩ := by
      unfold identTok
      rw [hu.word, hu.formula, hu.param, hn.1, hi]
      rfl
    have h16 : shiftTo s Sym.SIGNAL_ID = some 16 := by rcases hs with rfl | rfl <;> decide +kernel
    obtain ⟨_, e2, e3⟩ := shiftTo_some h16
    rw [ht] at hw
    unfold withLook at hw
    simp only [show (tokVal ⟨Sym.SIGNAL_ID, some u⟩).1 = Sym.SIGNAL_ID from rfl] at hw
    rw [if_neg e2, if_neg (by rw [e3]; decide), e3] at hw
    refine ⟨{ drv := d, stack := (goto s 63, .none) :: (s, v) :: st, look := none, input := rest },
      .none, .tail (.single hw) ?_, ?_, rfl, rfl, rfl⟩
    · unfold step
      simp only [hst, hp]
      rw [if_neg (by decide), if_pos (by decide +kernel)]
      rfl
    · simp only [declare, if_pos hm, ← hn.1]
  · have hi := numbered_none hm
    have ht : identTok d u = ⟨Sym.NEW_ID, some u⟩ := by
      unfold identTok
      rw [hu.word, hu.formula, hu.param, hu.test (by rw [hn.1, hi]), hn.1, hi]
      rfl
    have h15 : shiftTo s Sym.NEW_ID = some 15 := by rcases hs with rfl | rfl <;> decide +kernel
    obtain ⟨_, e2, e3⟩ := shiftTo_some h15
    rw [ht] at hw
    unfold withLook at hw
    simp only [show (tokVal ⟨Sym.NEW_ID, some u⟩).1 = Sym.NEW_ID from rfl] at hw
    rw [if_neg e2, if_neg (by rw [e3]; decide), e3] at hw
    refine ⟨{
        drv := { d with smap := d.smap.set u (d.smap.length + 1) }
        stack := (goto s 63, .none) :: (s, v) :: st
        look := none
        input := rest },
      .none, .tail (.single hw) ?_, ?_, rfl, rfl, rfl⟩
    · unfold step
      simp only [hst, hp]
      rw [if_neg (by decide), if_pos (by decide +kernel)]
      rfl
    · simp only [declare, if_neg hm, hn.1]
      rw [← set_numbered hm]
      congr 2
      simp [numbered]

theorem declared_next {d : Driver} {names : List String} {u : String} (h : Declared d names) :
    Declared { d with smap := numbered (declare names u) } (declare names u) := by
  refine ⟨rfl, ?_⟩
  unfold declare
  split_ifs with hm
  · exact h.2
  · exact List.nodup_append.2 ⟨h.2, by simp, by
      intro a ha b hb
      rw [List.mem_singleton.1 hb]
      rintro rfl
      exact hm ha⟩

theorem declarable_next {d : Driver} {names : List String} {u s : String} (hn : Declared d names)
    (h : Declarable d s) : Declarable { d with smap := numbered (declare names u) } s := by
  refine ⟨h.ident, h.word, h.formula, h.param, fun hs => h.test ?_⟩
  have := lookup_numbered hs
  rw [hn.1]
  refine numbered_none fun hm => this ?_
  unfold declare
  split_ifs
  · exact hm
  · simp [hm]

theorem spelled_cons {w : List Char} {ws : List (List Char)} {text : List Char}
    (h : Spelled (w :: ws) text) : ∃ rest, Spelled ws rest ∧
      ∀ (d : Driver) (t : Tok), Word d w t → lex d text = (t, rest) := by
  cases h with
  | cons hg hv hs => exact ⟨_, hs, fun d t hw => lex_word hg hw hv⟩

theorem word_name (d : Driver) {s : String} (h : IdentWord s.toList) : Word d s.toList (identTok d s) := by
  have := word_ident d h
  rwa [String.ofList_toList] at this

/-- The rest of a declaration, in state 18. -/
theorem decl_rest : ∀ (us : List String) {d : Driver} {names : List String} {p : PState} {v w : SVal}
    (_ : Declared d names) (_ : ∀ s ∈ us, Declarable d s) (_ : Spelled (declRest us) p.input)
    (_ : p.drv = d) (_ : p.stack = [(18, v), (2, w), (0, .none)]) (_ : p.look = none),
    ∃ n, run n p = .accept { d with smap := numbered (us.foldl declare names) }
  | [], d, names, p, v, w, hn, hd, hsp, hp, hst, hl => by
    cases hsp with
    | nil hg =>
      have ha : At d (fun _ _ => True) p ([(18, v), (2, w), (0, .none)], []) :=
        ⟨hp, hst, .inl ⟨hl, .nil trivial (lex_gap_end hg)⟩⟩
      have hm : Moves d ([(18, v), (2, w), (0, .none)], []) ([(10, w), (0, .none)], []) :=
        .tail (.single (.reduce (a := 0) (by decide) rfl (by decide +kernel) rfl (by decide)
          (g := 8) (by decide +kernel) rfl rfl)) (.reduceC (by decide) (by decide +kernel) rfl
          (by decide) (g := 10) (by decide +kernel) rfl rfl)
      obtain ⟨q, h1, h2⟩ := moves_rounds hm ha
      obtain ⟨n, h3⟩ := step_end h2
      obtain ⟨m, h4⟩ := rounds_run h1 h3
      refine ⟨m, ?_⟩
      rw [h4, List.foldl_nil, ← hn.1]
  | u :: us, d, names, p, v, w, hn, hd, hsp, hp, hst, hl => by
    obtain ⟨r1, hr1, hw1⟩ := spelled_cons hsp
    obtain ⟨r2, hr2, hw2⟩ := spelled_cons hr1
    have hu := hd u (by simp)
    have e1 := hw1 d _ (word_comma d)
    have e2 := hw2 d _ (word_name d hu.ident)
    have hstep : step p = .next { p with
        stack := (29, .none) :: p.stack
        look := none
        input := r1 } := by
      have h29 : shiftTo 18 Sym.COMMA = some 29 := by decide +kernel
      obtain ⟨f1, f2, f3⟩ := shiftTo_some h29
      unfold step
      simp only [hst]
      rw [if_neg (by decide), if_neg f1]
      simp only [hl, hp, e1]
      unfold withLook
      simp only [show (tokVal ⟨Sym.COMMA, none⟩).1 = Sym.COMMA from rfl]
      rw [if_neg f2, if_neg (by rw [f3]; decide), f3]
      rfl
    obtain ⟨q, w', g1, g2, g3, g4, g5⟩ := decl_one (p := { p with
        stack := (29, .none) :: p.stack
        look := none
        input := r1 }) (.inr rfl) hn hu hp rfl rfl e2
    rw [show goto 29 63 = 56 by decide +kernel, hst] at g3
    obtain ⟨qd, qs, ql, qi⟩ := q
    simp only at g2 g3 g4 g5
    subst g3
    have hq : step ⟨qd, [(56, w'), (29, .none), (18, v), (2, w), (0, .none)], ql, qi⟩ = .next ⟨qd, [(18, v), (2, w), (0, .none)], ql, qi⟩ := rfl
    obtain ⟨n, hn'⟩ := decl_rest us (p := ⟨qd, [(18, v), (2, w), (0, .none)], ql, qi⟩)
      (declared_next hn) (fun s hs => declarable_next hn (hd s (by simp [hs]))) (g5 ▸ hr2) g2 rfl g4
    obtain ⟨m, hm⟩ := rounds_run (.head hstep (g1.tail hq)) hn'
    exact ⟨m, hm⟩

/-- A declaration in a text: `signal u, ...` is accepted, the new names get the next numbers
in order, names already declared keep theirs, and nothing else changes. -/
theorem C43_text {d : Driver} {names : List String} {u : String} {us : List String}
    {text : List Char} (hn : Declared d names) (hd : ∀ s ∈ u :: us, Declarable d s)
    (ht : Spelled (signalWords u us) text) :
    Parses d text true { d with smap := numbered ((u :: us).foldl declare names) } := by
  obtain ⟨r1, hr1, hw1⟩ := spelled_cons ht
  obtain ⟨r2, hr2, hw2⟩ := spelled_cons hr1
  have hu := hd u (by simp)
  have e1 := hw1 d _ (word_reserved d (s := "signal") (k := Sym.SIGNAL_DECL) (by decide))
  have e2 := hw2 d _ (word_name d hu.ident)
  have hstep : step (start d text) = .next ⟨d, [(2, .none), (0, .none)], none, r1⟩ := by
    have h2 : shiftTo 0 Sym.SIGNAL_DECL = some 2 := by decide +kernel
    obtain ⟨f1, f2, f3⟩ := shiftTo_some h2
    unfold step start
    simp only
    rw [if_neg (by decide), if_neg f1]
    simp only [e1]
    unfold withLook
    simp only [show (tokVal ⟨Sym.SIGNAL_DECL, none⟩).1 = Sym.SIGNAL_DECL from rfl]
    rw [if_neg f2, if_neg (by rw [f3]; decide), f3]
    rfl
  obtain ⟨q, w', g1, g2, g3, g4, g5⟩ := decl_one (p := ⟨d, [(2, .none), (0, .none)], none, r1⟩)
    (.inl rfl) hn hu rfl rfl rfl e2
  rw [show goto 2 63 = 17 by decide +kernel] at g3
  obtain ⟨qd, qs, ql, qi⟩ := q
  simp only at g2 g3 g4 g5
  subst g3
  have hq : step ⟨qd, [(17, w'), (2, .none), (0, .none)], ql, qi⟩ = .next ⟨qd, [(18, w'), (2, .none), (0, .none)], ql, qi⟩ := rfl
  obtain ⟨n, hn'⟩ := decl_rest us (p := ⟨qd, [(18, w'), (2, .none), (0, .none)], ql, qi⟩)
    (declared_next hn) (fun s hs => declarable_next hn (hd s (by simp [hs]))) (g5 ▸ hr2) g2 rfl g4
  obtain ⟨m, hm⟩ := rounds_run (.head hstep (g1.tail hq)) hn'
  exact ⟨m, hm⟩

example : (parsed Driver.init "signal x, y,  z, x".toList).2.smap = numbered ["x", "y", "z"] := by
  decide +kernel
example : Declarable Driver.init "speed" :=
  ⟨⟨'s', "peed".toList, rfl, by decide, by decide⟩, by decide, rfl, rfl, fun _ => rfl⟩
example : Spelled (signalWords "x" ["y"]) "signal x,y".toList :=
  .cons (g := []) (w := "signal".toList) .nil (stops_munch (n := 25) (by decide +kernel))
    (.cons (g := [' ']) (w := "x".toList) (.blank (.inl rfl) .nil) (stops_munch (n := 25) (by decide +kernel))
      (.cons (g := []) (w := ",".toList) .nil (stops_munch (n := 18) (by decide +kernel))
        (.cons (g := []) (w := "y".toList) (text := []) .nil (stops_munch (n := 25) (by decide +kernel))
          (.nil .nil))))

end Props
end STLRom
