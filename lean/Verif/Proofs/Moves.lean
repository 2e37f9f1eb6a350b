import Verif.Proofs.ParserTable
import Verif.Proofs.Parser

/-!
# The parser on a list of tokens

As long as the driver does not change, the parser's rounds are moves of a machine with a stack
and the list of tokens the text scans to.
-/

namespace STLRom
namespace Parse
open Scan Text

/-- `text` scans to the tokens `ts`, then to the end; `P` holds of every remaining text and the
number of tokens in it. -/
inductive Lexed (d : Driver) (P : List Char → ℕ → Prop) : List Char → List Tok → Prop where
  | nil {text rest} : P text 0 → lex d text = (⟨Sym.EOF, none⟩, rest) → Lexed d P text []
  | cons {text t rest ts} : P text (ts.length + 1) → lex d text = (t, rest) → Lexed d P rest ts →
      Lexed d P text (t :: ts)

theorem Lexed.holds {d : Driver} {P : List Char → ℕ → Prop} {text : List Char} {ts : List Tok}
    (h : Lexed d P text ts) : P text ts.length := by
  cases h <;> assumption

/-- The symbol the parser sees next. -/
def headSym : List Tok → ℕ
  | [] => 0
  | t :: _ => t.sym

abbrev Cfg := List (ℕ × SVal) × List Tok

/-- One round that leaves the driver `d` as it is. -/
inductive Move (d : Driver) : Cfg → Cfg → Prop where
  | shift {s s' a v st t ts} : s ≠ 22 → t.sym = a → shiftTo s a = some s' → s' ≠ 0 →
      Move d ((s, v) :: st, t :: ts) ((s', (tokVal t).2) :: (s, v) :: st, ts)
  | reduce {s v st ts a r g t w rest u} : s ≠ 22 → headSym ts = a → shiftTo s a = none →
      yyDefact.getD s 0 = r → r ≠ 0 → goto t (yyR1.getD r 0) = g →
      ((s, v) :: st).drop (yyR2.getD r 0) = (t, w) :: rest →
      act d r ((((s, v) :: st).take (yyR2.getD r 0)).map (·.2)).reverse = .ok d u →
      Move d ((s, v) :: st, ts) ((g, u) :: (t, w) :: rest, ts)
  | reduceC {s v st ts r g t w rest u} : s ≠ 22 → yyPact.getD s 0 = pactNinf →
      yyDefact.getD s 0 = r → r ≠ 0 → goto t (yyR1.getD r 0) = g →
      ((s, v) :: st).drop (yyR2.getD r 0) = (t, w) :: rest →
      act d r ((((s, v) :: st).take (yyR2.getD r 0)).map (·.2)).reverse = .ok d u →
      Move d ((s, v) :: st, ts) ((g, u) :: (t, w) :: rest, ts)

abbrev Moves (d : Driver) := Relation.ReflTransGen (Move d)

/-- The parser's state `p` is the configuration `c`. -/
structure At (d : Driver) (P : List Char → ℕ → Prop) (p : PState) (c : Cfg) : Prop where
  drv : p.drv = d
  stack : p.stack = c.1
  toks : (p.look = none ∧ Lexed d P p.input c.2) ∨ (c.2 = [] ∧ p.look = some (0, .none)) ∨
    ∃ t ts, c.2 = t :: ts ∧ p.look = some (tokVal t) ∧ Lexed d P p.input ts

variable {P : List Char → ℕ → Prop}

/-- Rounds of the parser. -/
abbrev Rounds := Relation.ReflTransGen fun p q => step p = .next q

theorem shiftTo_some {s a s' : ℕ} (h : shiftTo s a = some s') : yyPact.getD s 0 ≠ pactNinf ∧
    ¬ (yyPact.getD s 0 + (a : ℤ) < 0 ∨ yyLast < yyPact.getD s 0 + (a : ℤ) ∨
      yyCheck.getD (yyPact.getD s 0 + (a : ℤ)).toNat (-1) ≠ (a : ℤ)) ∧
    yyTable.getD (yyPact.getD s 0 + (a : ℤ)).toNat 0 = s' := by
  unfold shiftTo at h
  simp only at h
  split_ifs at h with h1 h2
  exact ⟨h1, h2, by simpa using h⟩

theorem shiftTo_none {s a : ℕ} (h : shiftTo s a = none) (hn : yyPact.getD s 0 ≠ pactNinf) :
    yyPact.getD s 0 + (a : ℤ) < 0 ∨ yyLast < yyPact.getD s 0 + (a : ℤ) ∨
      yyCheck.getD (yyPact.getD s 0 + (a : ℤ)).toNat (-1) ≠ (a : ℤ) := by
  unfold shiftTo at h
  simp only at h
  split_ifs at h with h1 h2
  · exact absurd h1 hn
  · exact h2

/-- The lookahead is read if it is needed. -/
theorem step_look {d : Driver} {p : PState} {s : ℕ} {v : SVal} {st : List (ℕ × SVal)} {ts : List Tok}
    (h : At d P p ((s, v) :: st, ts)) (hs : s ≠ 22) (hn : yyPact.getD s 0 ≠ pactNinf) :
    ∃ q la, step p = withLook q s (yyPact.getD s 0) la ∧ At d P q ((s, v) :: st, ts) ∧
      q.look = some la ∧ la.1 = headSym ts ∧
      ∀ t ts', ts = t :: ts' → la = tokVal t ∧ Lexed d P q.input ts' := by
  obtain ⟨hd, hst, ht⟩ := h
  simp only at hst ht
  have hstep : step p = match p.look with
      | some la => withLook p s (yyPact.getD s 0) la
      | none => withLook { p with
          look := some (tokVal (lex p.drv p.input).1)
          input := (lex p.drv p.input).2 } s (yyPact.getD s 0) (tokVal (lex p.drv p.input).1) := by
    unfold step
    simp only [hst]
    rw [if_neg (show ¬ s = yyFinal from hs), if_neg hn]
    cases p.look <;> rfl
  rcases ht with ⟨h1, h2⟩ | ⟨rfl, h1⟩ | ⟨t, ts', rfl, h1, h2⟩
  · simp only [h1] at hstep
    cases h2 with
    | @nil _ rest _ hl =>
      rw [hd, hl] at hstep
      exact ⟨_, _, hstep, ⟨rfl, hst, .inr (.inl ⟨rfl, rfl⟩)⟩, rfl, rfl, by simp⟩
    | @cons _ t rest ts' _ hl h2 =>
      rw [hd, hl] at hstep
      refine ⟨_, _, hstep, ⟨rfl, hst, .inr (.inr ⟨t, ts', rfl, rfl, h2⟩)⟩, rfl, rfl, ?_⟩
      intro t' ts'' he
      simp only [List.cons.injEq] at he
      obtain ⟨rfl, rfl⟩ := he
      exact ⟨rfl, h2⟩
  · simp only [h1] at hstep
    exact ⟨p, _, hstep, ⟨hd, hst, .inr (.inl ⟨rfl, h1⟩)⟩, h1, rfl, by simp⟩
  · simp only [h1] at hstep
    refine ⟨p, _, hstep, ⟨hd, hst, .inr (.inr ⟨t, ts', rfl, h1, h2⟩)⟩, h1, rfl, ?_⟩
    intro t' ts'' he
    simp only [List.cons.injEq] at he
    obtain ⟨rfl, rfl⟩ := he
    exact ⟨rfl, h2⟩

theorem reduce_next {p : PState} {r t : ℕ} {w u : SVal} {rest : List (ℕ × SVal)} {d' : Driver}
    (h1 : p.stack.drop (yyR2.getD r 0) = (t, w) :: rest)
    (h2 : act p.drv r ((p.stack.take (yyR2.getD r 0)).map (·.2)).reverse = .ok d' u) :
    reduce p r = .next { p with
      drv := d'
      stack := (goto t (yyR1.getD r 0), u) :: (t, w) :: rest } := by
  unfold reduce
  simp only
  rw [h1]
  simp only
  rw [h2]

/-- A reduction, with whatever effect on the driver. -/
theorem step_reduce {d d' : Driver} {p : PState} {s r t : ℕ} {v w u : SVal}
    {st rest : List (ℕ × SVal)} {ts : List Tok}
    (h : At d P p ((s, v) :: st, ts)) (hs : s ≠ 22) (hsh : shiftTo s (headSym ts) = none)
    (hr : yyDefact.getD s 0 = r) (h0 : r ≠ 0)
    (h1 : ((s, v) :: st).drop (yyR2.getD r 0) = (t, w) :: rest)
    (h2 : act d r ((((s, v) :: st).take (yyR2.getD r 0)).map (·.2)).reverse = .ok d' u) :
    ∃ q, step p = .next q ∧ q.drv = d' ∧ q.stack = (goto t (yyR1.getD r 0), u) :: (t, w) :: rest ∧
      ((yyPact.getD s 0 = pactNinf ∧ q.look = p.look ∧ q.input = p.input) ∨
        ∃ la, q.look = some la ∧ la.1 = headSym ts ∧
          ((ts = [] ∧ la = (0, .none)) ∨ ∃ t ts', ts = t :: ts' ∧ la = tokVal t ∧ Lexed d P q.input ts')) := by
  by_cases hn : yyPact.getD s 0 = pactNinf
  · have hstep : step p = default p s := by
      unfold step
      have hst := h.stack
      simp only at hst
      simp only [hst]
      rw [if_neg (show ¬ s = yyFinal from hs), if_pos hn]
    unfold default at hstep
    simp only [hr, if_neg h0] at hstep
    have hst := h.stack
    have hd := h.drv
    subst hd
    simp only at hst
    rw [← hst] at h1 h2
    rw [reduce_next h1 h2] at hstep
    exact ⟨_, hstep, rfl, rfl, .inl ⟨hn, rfl, rfl⟩⟩
  · obtain ⟨q, la, hstep, hq, hl, hla, hts⟩ := step_look h hs hn
    unfold withLook at hstep
    simp only at hstep
    rw [hla, if_pos (shiftTo_none hsh hn)] at hstep
    unfold default at hstep
    simp only [hr, if_neg h0] at hstep
    have hst := hq.stack
    have hd := hq.drv
    subst hd
    simp only at hst
    rw [← hst] at h1 h2
    rw [reduce_next h1 h2] at hstep
    refine ⟨_, hstep, rfl, rfl, .inr ⟨la, hl, hla, ?_⟩⟩
    rcases hq.toks with ⟨h3, _⟩ | ⟨h3, h4⟩ | ⟨t, ts', h3, h4, h5⟩
    · rw [h3] at hl; simp at hl
    · rw [hl] at h4
      exact .inl ⟨h3, by simpa using h4⟩
    · exact .inr ⟨t, ts', h3, hts t ts' h3⟩

theorem step_shift {d : Driver} {p : PState} {s s' : ℕ} {v : SVal} {st : List (ℕ × SVal)} {t : Tok}
    {ts : List Tok} (h : At d P p ((s, v) :: st, t :: ts)) (hs : s ≠ 22)
    (hsh : shiftTo s t.sym = some s') (h0 : s' ≠ 0) :
    ∃ q, step p = .next q ∧ At d P q ((s', (tokVal t).2) :: (s, v) :: st, ts) ∧ q.look = none := by
  obtain ⟨hn, hi, ht⟩ := shiftTo_some hsh
  obtain ⟨q, la, hstep, hq, hl, hla, hts⟩ := step_look h hs hn
  obtain ⟨rfl, hlx⟩ := hts t ts rfl
  unfold withLook at hstep
  simp only at hstep
  rw [show (tokVal t).1 = t.sym from rfl, if_neg hi, if_neg (by rw [ht]; exact h0), ht] at hstep
  have hst := hq.stack
  simp only at hst
  exact ⟨_, hstep, ⟨hq.drv, by simp only [hst], .inl ⟨rfl, hlx⟩⟩, rfl⟩

/-- At the end of the text, in state 10, the parser accepts. -/
theorem step_end {d : Driver} {p : PState} {v : SVal} {st : List (ℕ × SVal)}
    (h : At d P p ((10, v) :: st, [])) : ∃ n, run n p = .accept d := by
  obtain ⟨q, la, hstep, hq, hl, hla, _⟩ := step_look h (by decide) (by decide +kernel)
  have hsh : shiftTo 10 0 = some 22 := by decide +kernel
  obtain ⟨_, hi, ht⟩ := shiftTo_some hsh
  unfold withLook at hstep
  simp only at hstep
  rw [show la.1 = 0 from hla] at hstep
  rw [if_neg hi, if_neg (by rw [ht]; decide), ht] at hstep
  refine ⟨2, ?_⟩
  rw [run, hstep]
  simp only
  rw [run]
  have : step { q with
      stack := (22, la.2) :: q.stack
      look := none } = .accept q.drv := rfl
  rw [this, hq.drv]

theorem move_step {d : Driver} {p : PState} {c c' : Cfg} (h : At d P p c) (hm : Move d c c') :
    ∃ q, step p = .next q ∧ At d P q c' := by
  cases hm with
  | shift hs ha hsh h0 =>
    subst ha
    obtain ⟨q, h1, h2, _⟩ := step_shift h hs hsh h0
    exact ⟨q, h1, h2⟩
  | @reduce s v st ts a r g t w rest u hs ha hsh hr h0 hg h1 h2 =>
    subst ha hg
    obtain ⟨q, h3, h4, h5, h6⟩ := step_reduce h hs hsh hr h0 h1 h2
    refine ⟨q, h3, h4, h5, ?_⟩
    rcases h6 with ⟨_, h7, h8⟩ | ⟨la, h7, _, ⟨rfl, rfl⟩ | ⟨t', ts', rfl, rfl, h8⟩⟩
    · rw [h7, h8]; exact h.toks
    · exact .inr (.inl ⟨rfl, h7⟩)
    · exact .inr (.inr ⟨t', ts', rfl, h7, h8⟩)
  | @reduceC s v st ts r g t w rest u hs hn hr h0 hg h1 h2 =>
    subst hg
    have hsh : ∀ a, shiftTo s a = none := by
      intro a
      unfold shiftTo
      simp only
      rw [if_pos hn]
    obtain ⟨q, h3, h4, h5, h6⟩ := step_reduce h hs (hsh _) hr h0 h1 h2
    refine ⟨q, h3, h4, h5, ?_⟩
    rcases h6 with ⟨_, h7, h8⟩ | ⟨la, h7, _, ⟨rfl, rfl⟩ | ⟨t', ts', rfl, rfl, h8⟩⟩
    · rw [h7, h8]; exact h.toks
    · exact .inr (.inl ⟨rfl, h7⟩)
    · exact .inr (.inr ⟨t', ts', rfl, h7, h8⟩)

theorem moves_rounds {d : Driver} {c c' : Cfg} (hm : Moves d c c') : ∀ {p : PState}, At d P p c →
    ∃ q, Rounds p q ∧ At d P q c' := by
  induction hm with
  | refl => intro p h; exact ⟨p, .refl, h⟩
  | tail _ hm ih =>
    intro p h
    obtain ⟨q, h1, h2⟩ := ih h
    obtain ⟨q', h3, h4⟩ := move_step h2 hm
    exact ⟨q', h1.tail h3, h4⟩

theorem rounds_run {p q : PState} (h : Rounds p q) {n : ℕ} {r : Step} (hr : run n q = r) :
    ∃ m, run m p = r := by
  induction h using Relation.ReflTransGen.head_induction_on with
  | refl => exact ⟨n, hr⟩
  | head h1 _ ih =>
    obtain ⟨m, hm⟩ := ih
    exact ⟨m + 1, by rw [run, h1]; exact hm⟩

theorem at_start {d : Driver} {text : List Char} {ts : List Tok} (h : Lexed d P text ts) :
    At d P (start d text) ([(0, .none)], ts) := ⟨rfl, rfl, .inl ⟨rfl, h⟩⟩

end Parse
end STLRom
