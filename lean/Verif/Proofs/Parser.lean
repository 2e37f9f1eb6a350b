import Mathlib.Data.List.Forall2
import Verif.Proofs.ParserTable
import Verif.Proofs.History
import Verif.Props.Scanner

/-!
# The parser's loop on every input

The stack always is a path of the automaton whose values have the types of their symbols; so no
action misreads the union, every parse ends, and its effects on the driver are a sequence of
complete statements.
-/

namespace STLRom
namespace Parse
open Scan Text Props

/-- The value of a symbol has the type the grammar gives it. -/
def Typed (d0 d : Driver) (a : ℕ) (v : SVal) : Prop :=
  if a ∈ [30, 31, 35, 36, 42, 51] then ∃ s, v = .str s
  else if a = 33 then ∃ s, v = .str s ∧ d0.formulas.lookup s = none
  else if a = 32 then ∃ s T, v = .str s ∧ d.formulas.lookup s = some T
  else if a = 34 then ∃ s i, v = .str s ∧ d.smap.lookup s = some i
  else if a ∈ [43, 44, 45, 46, 47, 48, 49, 50, 53] then ∃ T, v = .tr T
  else if a = 52 then ∃ I, v = .ival I
  else if a = 56 then ∃ b, v = .bool b
  else if a = 60 then ∃ p x l, v = .pmap ((p, x) :: l)
  else if a ∈ [61, 62] then ∃ m, v = .pmap m
  else True

/-- What the action of one rule may do to the driver; `d0` is the driver before the parse. -/
inductive Effect (d0 : Driver) : Driver → Driver → Prop where
  | none (d) : Effect d0 d d
  | formula (d : Driver) (s : String) (T : Tr) : d0.formulas.lookup s = Option.none →
      Effect d0 d { d with formulas := d.formulas.set s T }
  | param (d : Driver) (s : String) (x : ℚ) : Effect d0 d { d with params := d.params.set s x }
  | signal (d : Driver) (s : String) : d.smap.lookup s = Option.none →
      Effect d0 d { d with smap := d.smap.set s (d.smap.length + 1) }
  | tests (d d' : Driver) : d'.formulas = d.formulas → d'.params = d.params → d'.smap = d.smap →
      d'.data = d.data → d'.sem = d.sem → d'.ip = d.ip → Effect d0 d d'

variable {d0 : Driver}

/-- The names known before are still known. -/
structure Keeps (d d' : Driver) : Prop where
  formulas : ∀ s T, d.formulas.lookup s = some T → ∃ T', d'.formulas.lookup s = some T'
  smap : ∀ s i, d.smap.lookup s = some i → d'.smap.lookup s = some i

theorem Keeps.refl (d : Driver) : Keeps d d := ⟨fun _ T h => ⟨T, h⟩, fun _ _ h => h⟩

theorem Keeps.trans {a b c : Driver} (h : Keeps a b) (h' : Keeps b c) : Keeps a c :=
  ⟨fun s T hs => (h.formulas s T hs).elim fun T' hT => h'.formulas s T' hT,
    fun s i hs => h'.smap s i (h.smap s i hs)⟩

theorem Effect.keeps {d d' : Driver} (h : Effect d0 d d') : Keeps d d' := by
  cases h with
  | none => exact .refl _
  | formula s T _ =>
    refine ⟨fun s' T' h => ?_, fun _ _ h => h⟩
    rw [Assoc.lookup_set]
    split_ifs with hs
    · exact ⟨T, rfl⟩
    · exact ⟨T', h⟩
  | param s x => exact ⟨fun _ T h => ⟨T, h⟩, fun _ _ h => h⟩
  | signal s hs =>
    refine ⟨fun _ T h => ⟨T, h⟩, fun s' i h => ?_⟩
    rw [Assoc.lookup_set]
    split_ifs with he
    · rw [he, hs] at h; simp at h
    · exact h
  | tests _ h1 h2 h3 => exact ⟨fun s T h => ⟨T, by rw [h1]; exact h⟩, fun s i h => by rw [h3]; exact h⟩

theorem Typed.mono {d d' : Driver} (h : Keeps d d') {a : ℕ} {v : SVal} (ht : Typed d0 d a v) :
    Typed d0 d' a v := by
  unfold Typed at *
  split_ifs at * with h1 h2 h3 <;> try exact ht
  · obtain ⟨s, T, rfl, hs⟩ := ht
    obtain ⟨T', hT⟩ := h.formulas s T hs
    exact ⟨s, T', rfl, hT⟩
  · obtain ⟨s, i, rfl, hs⟩ := ht
    exact ⟨s, i, rfl, h.smap s i hs⟩

theorem effect_test6 (d : Driver) (id : String) (m : Assoc ℚ) (f : Tr) (p n : String) (b : Bool) :
    Effect d0 d (d.addStlTest6 id m f p n b) := by
  unfold Driver.addStlTest6
  simp only
  split_ifs <;> exact .tests _ _ rfl rfl rfl rfl rfl rfl

theorem effect_test12 (d : Driver) (id : String) (m : Assoc ℚ) :
    Effect d0 d (if m = [] then d.addStlTest1 id else d.addStlTest2 id m) := by
  unfold Driver.addStlTest1 Driver.addStlTest2
  simp only
  split_ifs <;> split <;> exact .tests _ _ rfl rfl rfl rfl rfl rfl

theorem act_6 (d : Driver) (s : String) (a b c : SVal) : act d 6 [.str s, a, b, c] =
    match d.smap.lookup s with
    | some (_ + 1) => .ok d (.tr (.sig .init s d.smap none))
    | some 0 => .err d
    | none => .err { d with smap := d.smap.set s 0 } := rfl

theorem act_32 (d : Driver) (s : String) : act d 32 [.str s] =
    match d.formulas.lookup s with
    | some T => .ok d (.tr T.clone)
    | none => .err d := rfl

/-- Actions on values of the right types: never undefined; `YYERROR` only for a signal with
index 0. -/
theorem act_spec (d : Driver) {r : ℕ} (h2 : 2 ≤ r) (h65 : r ≤ 65) {args : List SVal}
    (ha : List.Forall₂ (Typed d0 d) (rhs.getD r []) args)
    (h49 : r = 49 → ∃ s, args = [.str s] ∧ d.smap.lookup s = none) :
    (∃ d' v, act d r args = .ok d' v ∧ Effect d0 d d' ∧ Typed d0 d' (yyR1.getD r 0) v) ∨
    (act d r args = .err d ∧ ∃ s, d.smap.lookup s = some 0) := by
  interval_cases r
  · -- rule 2
    change List.Forall₂ (Typed d0 d) [30] args at ha
    rcases ha with _ | ⟨h1, ha⟩
    cases ha
    obtain ⟨s1, rfl⟩ := h1
    exact .inl ⟨_, _, rfl, .none _, ⟨_, rfl⟩⟩
  · -- rule 3
    change List.Forall₂ (Typed d0 d) [31] args at ha
    rcases ha with _ | ⟨h1, ha⟩
    cases ha
    obtain ⟨s1, rfl⟩ := h1
    exact .inl ⟨_, _, rfl, .none _, ⟨_, rfl⟩⟩
  · -- rule 4
    change List.Forall₂ (Typed d0 d) [30] args at ha
    rcases ha with _ | ⟨h1, ha⟩
    cases ha
    obtain ⟨s1, rfl⟩ := h1
    exact .inl ⟨_, _, rfl, .none _, ⟨_, rfl⟩⟩
  · -- rule 5
    change List.Forall₂ (Typed d0 d) [31] args at ha
    rcases ha with _ | ⟨h1, ha⟩
    cases ha
    obtain ⟨s1, rfl⟩ := h1
    exact .inl ⟨_, _, rfl, .none _, ⟨_, rfl⟩⟩
  · -- rule 6
    change List.Forall₂ (Typed d0 d) [34, 3, 16, 4] args at ha
    rcases ha with _ | ⟨h1, ha⟩
    rcases ha with _ | ⟨h2, ha⟩
    rcases ha with _ | ⟨h3, ha⟩
    rcases ha with _ | ⟨h4, ha⟩
    cases ha
    obtain ⟨s1, i1, rfl, e1⟩ := h1
    cases i1 with
    | zero => exact .inr ⟨by rw [act_6, e1], s1, e1⟩
    | succ i => exact .inl ⟨_, _, by rw [act_6, e1], .none _, ⟨_, rfl⟩⟩
  · -- rule 7
    change List.Forall₂ (Typed d0 d) [44] args at ha
    rcases ha with _ | ⟨h1, ha⟩
    cases ha
    obtain ⟨T1, rfl⟩ := h1
    exact .inl ⟨_, _, rfl, .none _, ⟨_, rfl⟩⟩
  · -- rule 8
    change List.Forall₂ (Typed d0 d) [43] args at ha
    rcases ha with _ | ⟨h1, ha⟩
    cases ha
    obtain ⟨T1, rfl⟩ := h1
    exact .inl ⟨_, _, rfl, .none _, ⟨_, rfl⟩⟩
  · -- rule 9
    change List.Forall₂ (Typed d0 d) [5, 49, 6] args at ha
    rcases ha with _ | ⟨h1, ha⟩
    rcases ha with _ | ⟨h2, ha⟩
    rcases ha with _ | ⟨h3, ha⟩
    cases ha
    obtain ⟨T2, rfl⟩ := h2
    exact .inl ⟨_, _, rfl, .none _, ⟨_, rfl⟩⟩
  · -- rule 10
    change List.Forall₂ (Typed d0 d) [45] args at ha
    rcases ha with _ | ⟨h1, ha⟩
    cases ha
    obtain ⟨T1, rfl⟩ := h1
    exact .inl ⟨_, _, rfl, .none _, ⟨_, rfl⟩⟩
  · -- rule 11
    change List.Forall₂ (Typed d0 d) [23, 5, 49, 6] args at ha
    rcases ha with _ | ⟨h1, ha⟩
    rcases ha with _ | ⟨h2, ha⟩
    rcases ha with _ | ⟨h3, ha⟩
    rcases ha with _ | ⟨h4, ha⟩
    cases ha
    obtain ⟨T3, rfl⟩ := h3
    exact .inl ⟨_, _, rfl, .none _, ⟨_, rfl⟩⟩
  · -- rule 12
    change List.Forall₂ (Typed d0 d) [46] args at ha
    rcases ha with _ | ⟨h1, ha⟩
    cases ha
    obtain ⟨T1, rfl⟩ := h1
    exact .inl ⟨_, _, rfl, .none _, ⟨_, rfl⟩⟩
  · -- rule 13
    change List.Forall₂ (Typed d0 d) [48, 22, 45] args at ha
    rcases ha with _ | ⟨h1, ha⟩
    rcases ha with _ | ⟨h2, ha⟩
    rcases ha with _ | ⟨h3, ha⟩
    cases ha
    obtain ⟨T1, rfl⟩ := h1
    obtain ⟨T3, rfl⟩ := h3
    exact .inl ⟨_, _, rfl, .none _, ⟨_, rfl⟩⟩
  · -- rule 14
    change List.Forall₂ (Typed d0 d) [47] args at ha
    rcases ha with _ | ⟨h1, ha⟩
    cases ha
    obtain ⟨T1, rfl⟩ := h1
    exact .inl ⟨_, _, rfl, .none _, ⟨_, rfl⟩⟩
  · -- rule 15
    change List.Forall₂ (Typed d0 d) [48, 20, 45] args at ha
    rcases ha with _ | ⟨h1, ha⟩
    rcases ha with _ | ⟨h2, ha⟩
    rcases ha with _ | ⟨h3, ha⟩
    cases ha
    obtain ⟨T1, rfl⟩ := h1
    obtain ⟨T3, rfl⟩ := h3
    exact .inl ⟨_, _, rfl, .none _, ⟨_, rfl⟩⟩
  · -- rule 16
    change List.Forall₂ (Typed d0 d) [48, 21, 45] args at ha
    rcases ha with _ | ⟨h1, ha⟩
    rcases ha with _ | ⟨h2, ha⟩
    rcases ha with _ | ⟨h3, ha⟩
    cases ha
    obtain ⟨T1, rfl⟩ := h1
    obtain ⟨T3, rfl⟩ := h3
    exact .inl ⟨_, _, rfl, .none _, ⟨_, rfl⟩⟩
  · -- rule 17
    change List.Forall₂ (Typed d0 d) [48] args at ha
    rcases ha with _ | ⟨h1, ha⟩
    cases ha
    obtain ⟨T1, rfl⟩ := h1
    exact .inl ⟨_, _, rfl, .none _, ⟨_, rfl⟩⟩
  · -- rule 18
    change List.Forall₂ (Typed d0 d) [49, 51, 49] args at ha
    rcases ha with _ | ⟨h1, ha⟩
    rcases ha with _ | ⟨h2, ha⟩
    rcases ha with _ | ⟨h3, ha⟩
    cases ha
    obtain ⟨T1, rfl⟩ := h1
    obtain ⟨s2, rfl⟩ := h2
    obtain ⟨T3, rfl⟩ := h3
    exact .inl ⟨_, _, rfl, .none _, ⟨_, rfl⟩⟩
  · -- rule 19
    change List.Forall₂ (Typed d0 d) [7] args at ha
    rcases ha with _ | ⟨h1, ha⟩
    cases ha
    exact .inl ⟨_, _, rfl, .none _, ⟨_, rfl⟩⟩
  · -- rule 20
    change List.Forall₂ (Typed d0 d) [9] args at ha
    rcases ha with _ | ⟨h1, ha⟩
    cases ha
    exact .inl ⟨_, _, rfl, .none _, ⟨_, rfl⟩⟩
  · -- rule 21
    change List.Forall₂ (Typed d0 d) [3, 42, 17, 42, 4] args at ha
    rcases ha with _ | ⟨h1, ha⟩
    rcases ha with _ | ⟨h2, ha⟩
    rcases ha with _ | ⟨h3, ha⟩
    rcases ha with _ | ⟨h4, ha⟩
    rcases ha with _ | ⟨h5, ha⟩
    cases ha
    obtain ⟨s2, rfl⟩ := h2
    obtain ⟨s4, rfl⟩ := h4
    exact .inl ⟨_, _, rfl, .none _, ⟨_, rfl⟩⟩
  · -- rule 22
    change List.Forall₂ (Typed d0 d) [3, 42, 42, 4] args at ha
    rcases ha with _ | ⟨h1, ha⟩
    rcases ha with _ | ⟨h2, ha⟩
    rcases ha with _ | ⟨h3, ha⟩
    rcases ha with _ | ⟨h4, ha⟩
    cases ha
    obtain ⟨s2, rfl⟩ := h2
    obtain ⟨s3, rfl⟩ := h3
    exact .inl ⟨_, _, rfl, .none _, ⟨_, rfl⟩⟩
  · -- rule 23
    change List.Forall₂ (Typed d0 d) [50] args at ha
    rcases ha with _ | ⟨h1, ha⟩
    cases ha
    obtain ⟨T1, rfl⟩ := h1
    exact .inl ⟨_, _, rfl, .none _, ⟨_, rfl⟩⟩
  · -- rule 24
    change List.Forall₂ (Typed d0 d) [8, 53] args at ha
    rcases ha with _ | ⟨h1, ha⟩
    rcases ha with _ | ⟨h2, ha⟩
    cases ha
    obtain ⟨T2, rfl⟩ := h2
    exact .inl ⟨_, _, rfl, .none _, ⟨_, rfl⟩⟩
  · -- rule 25
    change List.Forall₂ (Typed d0 d) [53, 10, 53] args at ha
    rcases ha with _ | ⟨h1, ha⟩
    rcases ha with _ | ⟨h2, ha⟩
    rcases ha with _ | ⟨h3, ha⟩
    cases ha
    obtain ⟨T1, rfl⟩ := h1
    obtain ⟨T3, rfl⟩ := h3
    exact .inl ⟨_, _, rfl, .none _, ⟨_, rfl⟩⟩
  · -- rule 26
    change List.Forall₂ (Typed d0 d) [53, 11, 53] args at ha
    rcases ha with _ | ⟨h1, ha⟩
    rcases ha with _ | ⟨h2, ha⟩
    rcases ha with _ | ⟨h3, ha⟩
    cases ha
    obtain ⟨T1, rfl⟩ := h1
    obtain ⟨T3, rfl⟩ := h3
    exact .inl ⟨_, _, rfl, .none _, ⟨_, rfl⟩⟩
  · -- rule 27
    change List.Forall₂ (Typed d0 d) [53, 12, 53] args at ha
    rcases ha with _ | ⟨h1, ha⟩
    rcases ha with _ | ⟨h2, ha⟩
    rcases ha with _ | ⟨h3, ha⟩
    cases ha
    obtain ⟨T1, rfl⟩ := h1
    obtain ⟨T3, rfl⟩ := h3
    exact .inl ⟨_, _, rfl, .none _, ⟨_, rfl⟩⟩
  · -- rule 28
    change List.Forall₂ (Typed d0 d) [14, 52, 53] args at ha
    rcases ha with _ | ⟨h1, ha⟩
    rcases ha with _ | ⟨h2, ha⟩
    rcases ha with _ | ⟨h3, ha⟩
    cases ha
    obtain ⟨I2, rfl⟩ := h2
    obtain ⟨T3, rfl⟩ := h3
    exact .inl ⟨_, _, rfl, .none _, ⟨_, rfl⟩⟩
  · -- rule 29
    change List.Forall₂ (Typed d0 d) [13, 52, 53] args at ha
    rcases ha with _ | ⟨h1, ha⟩
    rcases ha with _ | ⟨h2, ha⟩
    rcases ha with _ | ⟨h3, ha⟩
    cases ha
    obtain ⟨I2, rfl⟩ := h2
    obtain ⟨T3, rfl⟩ := h3
    exact .inl ⟨_, _, rfl, .none _, ⟨_, rfl⟩⟩
  · -- rule 30
    change List.Forall₂ (Typed d0 d) [53, 15, 52, 53] args at ha
    rcases ha with _ | ⟨h1, ha⟩
    rcases ha with _ | ⟨h2, ha⟩
    rcases ha with _ | ⟨h3, ha⟩
    rcases ha with _ | ⟨h4, ha⟩
    cases ha
    obtain ⟨T1, rfl⟩ := h1
    obtain ⟨I3, rfl⟩ := h3
    obtain ⟨T4, rfl⟩ := h4
    exact .inl ⟨_, _, rfl, .none _, ⟨_, rfl⟩⟩
  · -- rule 31
    change List.Forall₂ (Typed d0 d) [5, 53, 6] args at ha
    rcases ha with _ | ⟨h1, ha⟩
    rcases ha with _ | ⟨h2, ha⟩
    rcases ha with _ | ⟨h3, ha⟩
    cases ha
    obtain ⟨T2, rfl⟩ := h2
    exact .inl ⟨_, _, rfl, .none _, ⟨_, rfl⟩⟩
  · -- rule 32
    change List.Forall₂ (Typed d0 d) [32] args at ha
    rcases ha with _ | ⟨h1, ha⟩
    cases ha
    obtain ⟨s1, T1, rfl, e1⟩ := h1
    exact .inl ⟨_, _, by rw [act_32, e1], .none _, ⟨_, rfl⟩⟩
  · -- rule 33
    change List.Forall₂ (Typed d0 d) [33, 19, 53] args at ha
    rcases ha with _ | ⟨h1, ha⟩
    rcases ha with _ | ⟨h2, ha⟩
    rcases ha with _ | ⟨h3, ha⟩
    cases ha
    obtain ⟨s1, rfl, f1⟩ := h1
    obtain ⟨T3, rfl⟩ := h3
    exact .inl ⟨_, _, rfl, .formula _ _ _ f1, trivial⟩
  · -- rule 34
    change List.Forall₂ (Typed d0 d) [26, 33, 37, 36] args at ha
    rcases ha with _ | ⟨h1, ha⟩
    rcases ha with _ | ⟨h2, ha⟩
    rcases ha with _ | ⟨h3, ha⟩
    rcases ha with _ | ⟨h4, ha⟩
    cases ha
    obtain ⟨s2, rfl, f2⟩ := h2
    obtain ⟨s4, rfl⟩ := h4
    exact .inl ⟨_, _, rfl, .tests _ _ rfl rfl rfl rfl rfl rfl, trivial⟩
  · -- rule 35
    change List.Forall₂ (Typed d0 d) [26, 33, 37, 36, 17, 30, 17, 56] args at ha
    rcases ha with _ | ⟨h1, ha⟩
    rcases ha with _ | ⟨h2, ha⟩
    rcases ha with _ | ⟨h3, ha⟩
    rcases ha with _ | ⟨h4, ha⟩
    rcases ha with _ | ⟨h5, ha⟩
    rcases ha with _ | ⟨h6, ha⟩
    rcases ha with _ | ⟨h7, ha⟩
    rcases ha with _ | ⟨h8, ha⟩
    cases ha
    obtain ⟨s2, rfl, f2⟩ := h2
    obtain ⟨s4, rfl⟩ := h4
    obtain ⟨s6, rfl⟩ := h6
    obtain ⟨b8, rfl⟩ := h8
    exact .inl ⟨_, _, rfl, .tests _ _ rfl rfl rfl rfl rfl rfl, trivial⟩
  · -- rule 36
    change List.Forall₂ (Typed d0 d) [27] args at ha
    rcases ha with _ | ⟨h1, ha⟩
    cases ha
    exact .inl ⟨_, _, rfl, .none _, ⟨_, rfl⟩⟩
  · -- rule 37
    change List.Forall₂ (Typed d0 d) [28] args at ha
    rcases ha with _ | ⟨h1, ha⟩
    cases ha
    exact .inl ⟨_, _, rfl, .none _, ⟨_, rfl⟩⟩
  · -- rule 38
    change List.Forall₂ (Typed d0 d) [31, 38, 30] args at ha
    rcases ha with _ | ⟨h1, ha⟩
    rcases ha with _ | ⟨h2, ha⟩
    rcases ha with _ | ⟨h3, ha⟩
    cases ha
    obtain ⟨s1, rfl⟩ := h1
    obtain ⟨s3, rfl⟩ := h3
    exact .inl ⟨_, _, rfl, .param _ _ _, trivial⟩
  · -- rule 39
    change List.Forall₂ (Typed d0 d) [33, 38, 30] args at ha
    rcases ha with _ | ⟨h1, ha⟩
    rcases ha with _ | ⟨h2, ha⟩
    rcases ha with _ | ⟨h3, ha⟩
    cases ha
    obtain ⟨s1, rfl, f1⟩ := h1
    obtain ⟨s3, rfl⟩ := h3
    exact .inl ⟨_, _, rfl, .param _ _ _, trivial⟩
  · -- rule 40
    change List.Forall₂ (Typed d0 d) [57] args at ha
    rcases ha with _ | ⟨h1, ha⟩
    cases ha
    exact .inl ⟨_, _, rfl, .none _, trivial⟩
  · -- rule 41
    change List.Forall₂ (Typed d0 d) [58, 17, 57] args at ha
    rcases ha with _ | ⟨h1, ha⟩
    rcases ha with _ | ⟨h2, ha⟩
    rcases ha with _ | ⟨h3, ha⟩
    cases ha
    exact .inl ⟨_, _, rfl, .none _, trivial⟩
  · -- rule 42
    change List.Forall₂ (Typed d0 d) [24, 58] args at ha
    rcases ha with _ | ⟨h1, ha⟩
    rcases ha with _ | ⟨h2, ha⟩
    cases ha
    exact .inl ⟨_, _, rfl, .none _, trivial⟩
  · -- rule 43
    change List.Forall₂ (Typed d0 d) [31, 38, 30] args at ha
    rcases ha with _ | ⟨h1, ha⟩
    rcases ha with _ | ⟨h2, ha⟩
    rcases ha with _ | ⟨h3, ha⟩
    cases ha
    obtain ⟨s1, rfl⟩ := h1
    obtain ⟨s3, rfl⟩ := h3
    exact .inl ⟨_, _, rfl, .none _, ⟨_, _, _, rfl⟩⟩
  · -- rule 44
    change List.Forall₂ (Typed d0 d) [33, 38, 30] args at ha
    rcases ha with _ | ⟨h1, ha⟩
    rcases ha with _ | ⟨h2, ha⟩
    rcases ha with _ | ⟨h3, ha⟩
    cases ha
    obtain ⟨s1, rfl, f1⟩ := h1
    obtain ⟨s3, rfl⟩ := h3
    exact .inl ⟨_, _, rfl, .none _, ⟨_, _, _, rfl⟩⟩
  · -- rule 45
    change List.Forall₂ (Typed d0 d) [60] args at ha
    rcases ha with _ | ⟨h1, ha⟩
    cases ha
    obtain ⟨p1, x1, l1, rfl⟩ := h1
    exact .inl ⟨_, _, rfl, .none _, ⟨_, rfl⟩⟩
  · -- rule 46
    change List.Forall₂ (Typed d0 d) [61, 17, 60] args at ha
    rcases ha with _ | ⟨h1, ha⟩
    rcases ha with _ | ⟨h2, ha⟩
    rcases ha with _ | ⟨h3, ha⟩
    cases ha
    obtain ⟨m1, rfl⟩ := h1
    obtain ⟨p3, x3, l3, rfl⟩ := h3
    exact .inl ⟨_, _, rfl, .none _, ⟨_, rfl⟩⟩
  · -- rule 47
    change List.Forall₂ (Typed d0 d) [] args at ha
    cases ha
    exact .inl ⟨_, _, rfl, .none _, ⟨_, rfl⟩⟩
  · -- rule 48
    change List.Forall₂ (Typed d0 d) [5, 61, 6] args at ha
    rcases ha with _ | ⟨h1, ha⟩
    rcases ha with _ | ⟨h2, ha⟩
    rcases ha with _ | ⟨h3, ha⟩
    cases ha
    obtain ⟨m2, rfl⟩ := h2
    exact .inl ⟨_, _, rfl, .none _, ⟨_, rfl⟩⟩
  · -- rule 49
    obtain ⟨s, rfl, hs⟩ := h49 rfl
    exact .inl ⟨_, _, rfl, .signal d s hs, trivial⟩
  · -- rule 50
    change List.Forall₂ (Typed d0 d) [34] args at ha
    rcases ha with _ | ⟨h1, ha⟩
    cases ha
    obtain ⟨s1, i1, rfl, e1⟩ := h1
    exact .inl ⟨_, _, rfl, .none _, trivial⟩
  · -- rule 51
    change List.Forall₂ (Typed d0 d) [63] args at ha
    rcases ha with _ | ⟨h1, ha⟩
    cases ha
    exact .inl ⟨_, _, rfl, .none _, trivial⟩
  · -- rule 52
    change List.Forall₂ (Typed d0 d) [64, 17, 63] args at ha
    rcases ha with _ | ⟨h1, ha⟩
    rcases ha with _ | ⟨h2, ha⟩
    rcases ha with _ | ⟨h3, ha⟩
    cases ha
    exact .inl ⟨_, _, rfl, .none _, trivial⟩
  · -- rule 53
    change List.Forall₂ (Typed d0 d) [25, 64] args at ha
    rcases ha with _ | ⟨h1, ha⟩
    rcases ha with _ | ⟨h2, ha⟩
    cases ha
    exact .inl ⟨_, _, rfl, .none _, trivial⟩
  · -- rule 54
    change List.Forall₂ (Typed d0 d) [33, 62, 39, 53, 17, 36, 17, 36, 17, 56, 40] args at ha
    rcases ha with _ | ⟨h1, ha⟩
    rcases ha with _ | ⟨h2, ha⟩
    rcases ha with _ | ⟨h3, ha⟩
    rcases ha with _ | ⟨h4, ha⟩
    rcases ha with _ | ⟨h5, ha⟩
    rcases ha with _ | ⟨h6, ha⟩
    rcases ha with _ | ⟨h7, ha⟩
    rcases ha with _ | ⟨h8, ha⟩
    rcases ha with _ | ⟨h9, ha⟩
    rcases ha with _ | ⟨h10, ha⟩
    rcases ha with _ | ⟨h11, ha⟩
    cases ha
    obtain ⟨s1, rfl, f1⟩ := h1
    obtain ⟨m2, rfl⟩ := h2
    obtain ⟨T4, rfl⟩ := h4
    obtain ⟨s6, rfl⟩ := h6
    obtain ⟨s8, rfl⟩ := h8
    obtain ⟨b10, rfl⟩ := h10
    exact .inl ⟨_, _, rfl, effect_test6 .., trivial⟩
  · -- rule 55
    change List.Forall₂ (Typed d0 d) [35, 62] args at ha
    rcases ha with _ | ⟨h1, ha⟩
    rcases ha with _ | ⟨h2, ha⟩
    cases ha
    obtain ⟨s1, rfl⟩ := h1
    obtain ⟨m2, rfl⟩ := h2
    exact .inl ⟨_, _, rfl, effect_test12 .., trivial⟩
  · -- rule 56
    change List.Forall₂ (Typed d0 d) [67, 66] args at ha
    rcases ha with _ | ⟨h1, ha⟩
    rcases ha with _ | ⟨h2, ha⟩
    cases ha
    exact .inl ⟨_, _, rfl, .none _, trivial⟩
  · -- rule 57
    change List.Forall₂ (Typed d0 d) [66] args at ha
    rcases ha with _ | ⟨h1, ha⟩
    cases ha
    exact .inl ⟨_, _, rfl, .none _, trivial⟩
  · -- rule 58
    change List.Forall₂ (Typed d0 d) [55, 39, 67, 40] args at ha
    rcases ha with _ | ⟨h1, ha⟩
    rcases ha with _ | ⟨h2, ha⟩
    rcases ha with _ | ⟨h3, ha⟩
    rcases ha with _ | ⟨h4, ha⟩
    cases ha
    exact .inl ⟨_, _, rfl, .none _, trivial⟩
  · -- rule 59
    change List.Forall₂ (Typed d0 d) [54] args at ha
    rcases ha with _ | ⟨h1, ha⟩
    cases ha
    exact .inl ⟨_, _, rfl, .none _, trivial⟩
  · -- rule 60
    change List.Forall₂ (Typed d0 d) [68] args at ha
    rcases ha with _ | ⟨h1, ha⟩
    cases ha
    exact .inl ⟨_, _, rfl, .none _, trivial⟩
  · -- rule 61
    change List.Forall₂ (Typed d0 d) [59] args at ha
    rcases ha with _ | ⟨h1, ha⟩
    cases ha
    exact .inl ⟨_, _, rfl, .none _, trivial⟩
  · -- rule 62
    change List.Forall₂ (Typed d0 d) [65] args at ha
    rcases ha with _ | ⟨h1, ha⟩
    cases ha
    exact .inl ⟨_, _, rfl, .none _, trivial⟩
  · -- rule 63
    change List.Forall₂ (Typed d0 d) [69, 54] args at ha
    rcases ha with _ | ⟨h1, ha⟩
    rcases ha with _ | ⟨h2, ha⟩
    cases ha
    exact .inl ⟨_, _, rfl, .none _, trivial⟩
  · -- rule 64
    change List.Forall₂ (Typed d0 d) [69, 68] args at ha
    rcases ha with _ | ⟨h1, ha⟩
    rcases ha with _ | ⟨h2, ha⟩
    cases ha
    exact .inl ⟨_, _, rfl, .none _, trivial⟩
  · -- rule 65
    change List.Forall₂ (Typed d0 d) [69, 59] args at ha
    rcases ha with _ | ⟨h1, ha⟩
    rcases ha with _ | ⟨h2, ha⟩
    cases ha
    exact .inl ⟨_, _, rfl, .none _, trivial⟩

/-- A stack the automaton can have, with values of the right types. -/
inductive Valid (d0 d : Driver) : List (ℕ × SVal) → Prop where
  | base : Valid d0 d [(0, .none)]
  | push {s v t w rest} : Valid d0 d ((t, w) :: rest) → Edge t s → s < 134 → s ≠ 0 →
      Typed d0 d (yyStos.getD s 0) v → Valid d0 d ((s, v) :: (t, w) :: rest)

theorem Valid.mono {d d' : Driver} (h : Keeps d d') {st} (hv : Valid d0 d st) : Valid d0 d' st := by
  induction hv with
  | base => exact .base
  | push _ he hl h0 ht ih => exact .push ih he hl h0 (ht.mono h)

theorem Valid.top {d st} (h : Valid d0 d st) : ∃ s v rest, st = (s, v) :: rest ∧ s < 134 := by
  cases h with
  | base => exact ⟨_, _, _, rfl, by decide⟩
  | push _ _ hl _ _ => exact ⟨_, _, _, rfl, hl⟩

theorem mem_step {S : List ℕ} {s t : ℕ} (hs : s ∈ S) (he : Edge t s) :
    t ∈ (S.flatMap fun s => below.getD s []).eraseDups := by
  rw [List.mem_eraseDups]
  exact List.mem_flatMap.2 ⟨s, hs, he⟩

/-- Popping a right-hand side. -/
theorem pop_spec {d : Driver} : ∀ (syms S : List ℕ) (st : List (ℕ × SVal)), Valid d0 d st →
    (∃ s v rest, st = (s, v) :: rest ∧ s ∈ S) → popCheck syms S = true →
    ∃ t w rest, st.drop syms.length = (t, w) :: rest ∧ t ∈ down syms.length S ∧
      Valid d0 d ((t, w) :: rest) ∧
      List.Forall₂ (Typed d0 d) syms ((st.take syms.length).map (·.2)) ∧
      (st.take syms.length).map (fun e => yyStos.getD e.1 0) = syms
  | [], S, st, hv, ⟨s, v, rest, he, hs⟩, _ => ⟨s, v, rest, he, hs, he ▸ hv, by simp, rfl⟩
  | a :: syms, S, st, hv, ⟨s, v, rest, he0, hs⟩, hc => by
    subst he0
    simp only [popCheck, Bool.and_eq_true, List.all_eq_true, beq_iff_eq, bne_iff_ne] at hc
    obtain ⟨ha, h0⟩ := hc.1 s hs
    cases hv with
    | base => exact absurd rfl h0
    | @push _ _ t w rest hv he hl _ ht =>
      obtain ⟨t', w', rest', h1, h2, h3, h4, h5⟩ :=
        pop_spec syms _ _ hv ⟨t, w, rest, rfl, mem_step hs he⟩ hc.2
      refine ⟨t', w', rest', h1, h2, h3, ?_, ?_⟩
      · rw [List.length_cons, List.take_succ_cons, List.map_cons]
        exact .cons (ha ▸ ht) h4
      · rw [List.length_cons, List.take_succ_cons, List.map_cons, ha, h5]

/-- The invariant of the loop. -/
structure Inv (d0 : Driver) (p : PState) : Prop where
  keeps : Keeps d0 p.drv
  valid : Valid d0 p.drv p.stack
  look : ∀ a v, p.look = some (a, v) → a < 41 ∧ Typed d0 p.drv a v
  fresh : ∀ v rest, p.stack = (15, v) :: rest → ∃ s, v = .str s ∧ p.drv.smap.lookup s = none
  nolook : ∀ s v rest, p.stack = (s, v) :: rest → s = 2 ∨ s = 29 → p.look = none

theorem inv_start (d : Driver) (text : List Char) : Inv d (start d text) where
  keeps := .refl d
  valid := .base
  look := by simp [start]
  fresh := by simp [start]
  nolook := by simp [start]

/-! ## Tokens -/

/-- What the parser needs to know about a token. -/
structure TokOk (d0 d : Driver) (t : Tok) : Prop where
  lt : t.sym < 41
  typed : Typed d0 d t.sym (tokVal t).2
  fresh : t.sym = Sym.NEW_ID → ∃ s, t.str = some s ∧ d.smap.lookup s = none

theorem reserved_sym : (reserved.all fun p => decide (p.2 < 41) &&
    !([30, 31, 32, 33, 34, 35, 36, 42, 43, 44, 45, 46, 47, 48, 49, 50, 51, 52, 53, 56, 60, 61,
      62].contains p.2)) = true := by decide +kernel

theorem typed_other {d : Driver} {a : ℕ} {v : SVal}
    (h : a ∉ [30, 31, 32, 33, 34, 35, 36, 42, 43, 44, 45, 46, 47, 48, 49, 50, 51, 52, 53, 56, 60,
      61, 62]) : Typed d0 d a v := by
  unfold Typed
  simp only [List.mem_cons, List.not_mem_nil, or_false, not_or] at h ⊢
  repeat rw [if_neg (by omega)]
  trivial

theorem tokenOf_ok {d : Driver} {n : ℕ} {u : List Char} {t : Tok} (hk : Keeps d0 d)
    (h : TokenOf d n u t) : TokOk d0 d t := by
  cases h with
  | @keyword u k hk =>
    have := List.all_eq_true.1 reserved_sym _ hk
    simp only [Bool.and_eq_true, decide_eq_true_eq, Bool.not_eq_true'] at this
    have hk' : k ∉ [30, 31, 32, 33, 34, 35, 36, 42, 43, 44, 45, 46, 47, 48, 49, 50, 51, 52, 53, 56,
        60, 61, 62] := by simpa using this.2
    refine ⟨this.1, typed_other hk', ?_⟩
    intro he
    exact absurd (by simp [show k = 33 from he]) hk'
  | @formula u T _ h1 => exact ⟨(by decide : (32 : ℕ) < 41), ⟨_, T, rfl, h1⟩, by simp⟩
  | @signal u i _ _ _ h1 => exact ⟨(by decide : (34 : ℕ) < 41), ⟨_, i, rfl, h1⟩, by simp⟩
  | @fresh u _ h0 _ h1 _ =>
    refine ⟨(by decide : (33 : ℕ) < 41), ⟨_, rfl, ?_⟩, fun _ => ⟨_, rfl, h1⟩⟩
    cases hd : d0.formulas.lookup (String.ofList u) with
    | none => rfl
    | some T =>
      obtain ⟨T', hT⟩ := hk.formulas _ T hd
      rw [h0] at hT
      simp at hT
  | param _ _ _ => exact ⟨(by decide : (31 : ℕ) < 41), ⟨_, rfl⟩, by simp⟩
  | test _ _ _ _ _ => exact ⟨(by decide : (35 : ℕ) < 41), ⟨_, rfl⟩, by simp⟩
  | constant _ => exact ⟨(by decide : (30 : ℕ) < 41), ⟨_, rfl⟩, by simp⟩
  | string => exact ⟨(by decide : (36 : ℕ) < 41), ⟨_, rfl⟩, by simp⟩
  | _ => exact ⟨by decide, typed_other (by decide), by simp⟩

theorem lexes_ok {d : Driver} {text : List Char} {t : Tok} {rest : List Char}
    (hk : Keeps d0 d) (h : Lexes d text t rest) : TokOk d0 d t ∧ rest.length ≤ text.length ∧
      (t.sym ≠ 0 → rest.length < text.length) := by
  induction h with
  | done => exact ⟨⟨by decide, typed_other (by decide), by simp⟩, le_rfl, by simp⟩
  | skip hm _ _ ih =>
    obtain ⟨rfl, _⟩ := hm
    refine ⟨ih.1, ?_, fun h => ?_⟩
    · have := ih.2.1; simp; omega
    · have := ih.2.2 h; simp; omega
  | token hm ht =>
    obtain ⟨rfl, hu, _⟩ := hm
    have := List.length_pos_iff.2 hu
    exact ⟨tokenOf_ok hk ht, by simp, fun _ => by simp; omega⟩

/-! ## One round of the loop -/

/-- Weight of the stack. -/
def wt (st : List (ℕ × SVal)) : ℕ := (st.map fun e => weight.getD (yyStos.getD e.1 0) 0).sum

/-- On the states 49 and 50 the empty rule 47 may follow. -/
def bonus : List (ℕ × SVal) → ℕ
  | [] => 0
  | (s, _) :: _ => if s = 49 ∨ s = 50 then 2 else 0

/-- Tokens still to come, at most. -/
def toks (look : Option (ℕ × SVal)) (input : List Char) : ℕ :=
  input.length + match look with
    | some (0, _) => 0
    | some (_ + 1, _) => 1
    | none => 0

/-- The loop lowers this number. -/
def measure (p : PState) : ℕ :=
  match p.stack with
  | [] => 0
  | (s, _) :: _ =>
    if s = 22 then 0 else 1 + 10 * toks p.look p.input + wt p.stack + bonus p.stack

theorem state15 : ((List.range 134).all fun s => yyDefact.getD s 0 != 49 || s == 15) = true := by
  decide +kernel

theorem bonus_le (st) : bonus st ≤ 2 := by
  unfold bonus
  split
  · omega
  · split_ifs <;> omega

theorem weight_getD_le (a : ℕ) : weight.getD a 0 ≤ 7 := by
  rw [List.getD_eq_getElem?_getD]
  cases h : weight[a]? with
  | none => simp
  | some w =>
    have := List.all_eq_true.1 weight_le w (List.mem_of_getElem? h)
    simpa using this

/-- What `reduce` needs. -/
structure Inv0 (d0 : Driver) (p : PState) : Prop where
  keeps : Keeps d0 p.drv
  valid : Valid d0 p.drv p.stack
  look : ∀ a v, p.look = some (a, v) → a < 41 ∧ Typed d0 p.drv a v
  fresh : ∀ v rest, p.stack = (15, v) :: rest → ∃ s, v = .str s ∧ p.drv.smap.lookup s = none

theorem wt_split (n : ℕ) (st : List (ℕ × SVal)) :
    wt st = (((st.take n).map fun e => yyStos.getD e.1 0).map fun a => weight.getD a 0).sum +
      wt (st.drop n) := by
  unfold wt
  rw [List.map_map, ← List.sum_append]
  simp only [Function.comp_def]
  rw [← List.map_append, List.take_append_drop]

theorem reduce_spec {p : PState} (h : Inv0 d0 p) {s : ℕ} {v : SVal} {rest : List (ℕ × SVal)}
    (hs : p.stack = (s, v) :: rest) (h22 : s ≠ 22) (hr : yyDefact.getD s 0 ≠ 0) :
    (reduce p (yyDefact.getD s 0) = .abort p.drv ∧ ∃ s, p.drv.smap.lookup s = some 0) ∨
    ∃ p', reduce p (yyDefact.getD s 0) = .next p' ∧ Inv d0 p' ∧ Effect d0 p.drv p'.drv ∧
      p'.look = p.look ∧ p'.input = p.input ∧
      wt p'.stack + bonus p'.stack < wt p.stack + bonus p.stack ∧
      (∃ s v rest, p'.stack = (s, v) :: rest ∧ s ≠ 22) := by
  obtain ⟨s', v', rest', he, hlt⟩ := h.valid.top
  rw [hs] at he
  obtain ⟨⟨rfl, rfl⟩, rfl⟩ : (s = s' ∧ v = v') ∧ rest = rest' := by simpa using he
  have hmem : s ∈ List.range 134 := List.mem_range.2 hlt
  have hc := List.all_eq_true.1 check_reduce s hmem
  have hw := List.all_eq_true.1 check_weight s hmem
  have h15 := List.all_eq_true.1 state15 s hmem
  generalize hR : yyDefact.getD s 0 = r at *
  simp only [checkReduce, hR, Bool.or_eq_true, beq_iff_eq, hr, h22, or_self, if_false,
    Bool.and_eq_true, decide_eq_true_eq, List.all_eq_true, bne_iff_ne] at hc
  simp only [Bool.or_eq_true, beq_iff_eq, hr, h22, false_or, Bool.and_eq_true,
    decide_eq_true_eq, bne_iff_ne] at hw
  simp only [Bool.or_eq_true, beq_iff_eq, bne_iff_ne] at h15
  obtain ⟨⟨⟨⟨h2, h65⟩, hlen⟩, hpop⟩, hg⟩ := hc
  obtain ⟨t, w, rest', hd, ht, hv, hty, hsy⟩ := pop_spec (rhs.getD r []).reverse [s] p.stack h.valid
    ⟨s, v, rest, hs, by simp⟩ hpop
  rw [List.length_reverse] at hd ht hty hsy
  obtain ⟨⟨⟨⟨⟨⟨⟨⟨⟨g1, g2⟩, g3⟩, g4⟩, g5⟩, g6⟩, g7⟩, g8⟩, g9⟩, g10⟩ := hg t ht
  have hty' : List.Forall₂ (Typed d0 p.drv) (rhs.getD r [])
      ((p.stack.take (yyR2.getD r 0)).map (·.2)).reverse := by
    rw [← hlen]
    have := List.rel_reverse hty
    rwa [List.reverse_reverse] at this
  have hred : reduce p r = match act p.drv r ((p.stack.take (yyR2.getD r 0)).map (·.2)).reverse with
      | .ub => .ub
      | .err d => .abort d
      | .ok d u => .next { p with
          drv := d
          stack := (goto t (yyR1.getD r 0), u) :: (t, w) :: rest' } := by
    unfold reduce
    simp only
    rw [← hlen, hd]
    cases act p.drv r (List.map (·.2) (List.take (rhs.getD r []).length p.stack)).reverse <;> rfl
  have h49 : r = 49 → ∃ x, ((p.stack.take (yyR2.getD r 0)).map (·.2)).reverse = [.str x] ∧
      p.drv.smap.lookup x = none := by
    intro h49
    subst h49
    have : s = 15 := by simpa using h15
    subst this
    obtain ⟨x, rfl, hx⟩ := h.fresh v rest hs
    exact ⟨x, by rw [hs]; rfl, hx⟩
  rcases act_spec p.drv h2 h65 hty' h49 with ⟨d', u, ha, he, htu⟩ | ⟨ha, hz⟩
  · refine .inr ⟨{ p with
      drv := d'
      stack := (goto t (yyR1.getD r 0), u) :: (t, w) :: rest' }, by rw [hred, ha], ?_, he, rfl, rfl, ?_, ?_⟩
    · refine ⟨h.keeps.trans he.keeps, .push (hv.mono he.keeps) g1 g2 g9 (by rw [g10]; exact htu), ?_, ?_, ?_⟩
      · intro a x hx
        exact ⟨(h.look a x hx).1, (h.look a x hx).2.mono he.keeps⟩
      · intro x rs hx
        simp only [List.cons.injEq, Prod.mk.injEq] at hx
        exact absurd hx.1.1 g6
      · intro s' x rs hx hs'
        simp only [List.cons.injEq, Prod.mk.injEq] at hx
        rcases hs' with rfl | rfl
        · exact absurd hx.1.1 g7
        · exact absurd hx.1.1 g8
    · have hb : bonus ((goto t (yyR1.getD r 0), u) :: (t, w) :: rest') = 0 := by
        simp only [bonus]
        rw [if_neg (not_or.2 ⟨g4, g5⟩)]
      have e1 := wt_split (rhs.getD r []).length p.stack
      rw [hsy, hd] at e1
      have e2 : wt ((goto t (yyR1.getD r 0), u) :: (t, w) :: rest') =
          weight.getD (yyR1.getD r 0) 0 + wt ((t, w) :: rest') := by
        simp only [wt, List.map_cons, List.sum_cons, g10]
      have e3 : (((rhs.getD r []).reverse).map fun a => weight.getD a 0).sum =
          ((rhs.getD r []).map fun a => weight.getD a 0).sum := by
        rw [List.map_reverse, List.sum_reverse]
      simp only
      rw [hb, e2, e1, e3]
      rcases hw with ⟨rfl, h4⟩ | ⟨_, hw⟩
      · have : bonus p.stack = 2 := by
          rw [hs]
          simp only [bonus]
          rw [if_pos h4]
        have e4 : weight.getD (yyR1.getD 47 0) 0 = 1 := by decide +kernel
        have e5 : ((rhs.getD 47 []).map fun a => weight.getD a 0).sum = 0 := by decide +kernel
        omega
      · omega
    · exact ⟨_, _, _, rfl, g3⟩
  · exact .inl ⟨by rw [hred, ha], hz⟩

theorem measure_of {p : PState} {s : ℕ} {v rest} (hs : p.stack = (s, v) :: rest) (h : s ≠ 22) :
    measure p = 1 + 10 * toks p.look p.input + wt p.stack + bonus p.stack := by
  unfold measure
  rw [hs]
  simp [h]

/-- The end of `parse()`, or a smaller state. -/
def Good (d0 : Driver) (p : PState) (r : Step) : Prop :=
  r = .accept p.drv ∨ r = .abort p.drv ∨
    ∃ p', r = .next p' ∧ Inv d0 p' ∧ Effect d0 p.drv p'.drv ∧ measure p' < measure p

theorem default_good {p q : PState} (h : Inv0 d0 q) {s : ℕ} {v : SVal} {rest : List (ℕ × SVal)}
    (hs : q.stack = (s, v) :: rest) (h22 : s ≠ 22) (hd : p.drv = q.drv) (hst : p.stack = q.stack)
    (ht : toks q.look q.input ≤ toks p.look p.input) : Good d0 p (default q s) := by
  unfold default
  simp only
  split_ifs with hr
  · exact .inr (.inl (by rw [hd]))
  · rcases reduce_spec h hs h22 hr with ⟨h1, _⟩ | ⟨p', h1, h2, h3, h4, h5, h6, s', v', r', h7, h8⟩
    · exact .inr (.inl (by rw [h1, hd]))
    · refine .inr (.inr ⟨p', h1, h2, hd ▸ h3, ?_⟩)
      rw [measure_of h7 h8, measure_of (hst.trans hs) h22, h4, h5, hst]
      omega

theorem shiftTo_of {s a : ℕ} (h : yyPact.getD s 0 ≠ pactNinf)
    (hi : ¬ (yyPact.getD s 0 + (a : ℤ) < 0 ∨ yyLast < yyPact.getD s 0 + (a : ℤ) ∨
      yyCheck.getD (yyPact.getD s 0 + (a : ℤ)).toNat (-1) ≠ (a : ℤ))) :
    shiftTo s a = some (yyTable.getD (yyPact.getD s 0 + (a : ℤ)).toNat 0) := by
  unfold shiftTo
  simp only
  rw [if_neg h, if_neg hi]

theorem below15 : below.getD 15 [] = [2, 29] := by decide +kernel

theorem withLook_good {p q : PState} (h : Inv0 d0 q) {s : ℕ} {v : SVal} {rest : List (ℕ × SVal)}
    (hs : q.stack = (s, v) :: rest) (h22 : s ≠ 22) (hd : p.drv = q.drv) (hst : p.stack = q.stack)
    (ht : toks q.look q.input ≤ toks p.look p.input) (hn : yyPact.getD s 0 ≠ pactNinf)
    {la : ℕ × SVal} (hla : q.look = some la)
    (hf : s = 2 ∨ s = 29 → la.1 = 33 → ∃ x, la.2 = .str x ∧ q.drv.smap.lookup x = none) :
    Good d0 p (withLook q s (yyPact.getD s 0) la) := by
  obtain ⟨s', v', rest', he, hlt⟩ := h.valid.top
  rw [hs] at he
  obtain ⟨⟨rfl, rfl⟩, rfl⟩ : (s = s' ∧ v = v') ∧ rest = rest' := by simpa using he
  obtain ⟨a, x⟩ := la
  obtain ⟨ha, htx⟩ := h.look a x hla
  unfold withLook
  simp only
  split_ifs with hi h0
  · exact default_good h hs h22 hd hst ht
  · have hc := List.all_eq_true.1 (List.all_eq_true.1 check_shift s (List.mem_range.2 hlt)) a
      (List.mem_range.2 ha)
    rw [checkShift, shiftTo_of hn hi] at hc
    simp only [Bool.and_eq_true, bne_iff_ne] at hc
    exact absurd h0 hc.1.1.1.2
  · have hc := List.all_eq_true.1 (List.all_eq_true.1 check_shift s (List.mem_range.2 hlt)) a
      (List.mem_range.2 ha)
    rw [checkShift, shiftTo_of hn hi] at hc
    generalize yyTable.getD (yyPact.getD s 0 + (a : ℤ)).toNat 0 = t at *
    simp only [Bool.and_eq_true, decide_eq_true_eq, bne_iff_ne, beq_iff_eq, Bool.or_eq_true] at hc
    obtain ⟨⟨⟨⟨c1, c2⟩, c3⟩, c4⟩, c5⟩ := hc
    refine .inr (.inr ⟨_, rfl, ⟨h.keeps, ?_, ?_, ?_, ?_⟩, ?_, ?_⟩)
    · simp only
      rw [hs]
      exact .push (hs ▸ h.valid) c1 c3 c2 (c4 ▸ htx)
    · simp
    · intro y rs hy
      simp only [List.cons.injEq, Prod.mk.injEq] at hy
      obtain ⟨⟨rfl, rfl⟩, _⟩ := hy
      have : s ∈ [2, 29] := by rw [← below15]; exact c1
      refine hf (by simpa using this) ?_
      rw [← c4]
      exact (by decide +kernel : yyStos.getD 15 0 = 33)
    · simp
    · rw [hd]; exact .none _
    · rw [measure_of (hst.trans hs) h22]
      by_cases ht22 : t = 22
      · unfold measure
        simp only
        rw [if_pos ht22]
        omega
      · rw [measure_of (p := { q with stack := (t, x) :: q.stack, look := none }) rfl ht22]
        have ha0 : a ≠ 0 := by
          rcases c5 with c5 | c5
          · exact c5
          · exact absurd c5 ht22
        have e1 : toks q.look q.input = q.input.length + 1 := by
          rw [hla]
          obtain ⟨b, rfl⟩ := Nat.exists_eq_succ_of_ne_zero ha0
          rfl
        have e2 : toks none q.input = q.input.length := rfl
        have e3 : wt ((t, x) :: q.stack) = weight.getD (yyStos.getD t 0) 0 + wt q.stack := rfl
        have e4 := weight_getD_le (yyStos.getD t 0)
        have e5 := bonus_le ((t, x) :: q.stack)
        simp only
        rw [e2, e3, hst]
        omega

theorem step_good {p : PState} (h : Inv d0 p) : Good d0 p (step p) := by
  obtain ⟨s, v, rest, hs, hlt⟩ := h.valid.top
  have h0 : Inv0 d0 p := ⟨h.keeps, h.valid, h.look, h.fresh⟩
  unfold step
  rw [hs]
  simp only
  split_ifs with h22 hn
  · exact .inl rfl
  · exact default_good h0 hs h22 rfl rfl le_rfl
  · split
    · rename_i la hla
      refine withLook_good h0 hs h22 rfl rfl le_rfl hn hla fun hs' => ?_
      rw [h.nolook s v rest hs hs'] at hla
      simp at hla
    · rename_i hla
      obtain ⟨hok, hle, hlt'⟩ := lexes_ok h.keeps (C42_lex p.drv p.input)
      generalize hL : lex p.drv p.input = L at *
      obtain ⟨t, rs⟩ := L
      simp only at hok hle hlt' ⊢
      rw [← hs]
      refine withLook_good (p := p) (q := { p with
        look := some (tokVal t)
        input := rs }) ?_ hs h22 rfl rfl ?_ hn rfl ?_
      · refine ⟨h.keeps, h.valid, ?_, h.fresh⟩
        intro a x hx
        have hx' : tokVal t = (a, x) := by simpa using hx
        have e1 : t.sym = a := congrArg Prod.fst hx'
        have e2 : (tokVal t).2 = x := congrArg Prod.snd hx'
        rw [← e1, ← e2]
        exact ⟨hok.lt, hok.typed⟩
      · simp only
        rw [hla]
        have e1 : toks none p.input = p.input.length := rfl
        rw [e1]
        have e2 : tokVal t = (t.sym, (tokVal t).2) := rfl
        rw [e2]
        by_cases hz : t.sym = 0
        · rw [hz]
          exact hle
        · have := hlt' hz
          obtain ⟨b, hb⟩ := Nat.exists_eq_succ_of_ne_zero hz
          rw [hb]
          exact this
      · intro _ h33
        obtain ⟨x, hx, hl⟩ := hok.fresh h33
        refine ⟨x, ?_, hl⟩
        unfold tokVal
        rw [hx]

/-- The loop ends, without undefined behaviour. -/
theorem run_ends : ∀ (n : ℕ) {p : PState}, Inv d0 p → measure p ≤ n →
    ∃ d', (run (n + 1) p = .accept d' ∨ run (n + 1) p = .abort d') ∧
      Relation.ReflTransGen (Effect d0) p.drv d'
  | n, p, h, hm => by
    rcases step_good h with h1 | h1 | ⟨p', h1, h2, h3, h4⟩
    · exact ⟨p.drv, .inl (by rw [run, h1]), .refl⟩
    · exact ⟨p.drv, .inr (by rw [run, h1]), .refl⟩
    · cases n with
      | zero => omega
      | succ n =>
        obtain ⟨d', h5, h6⟩ := run_ends n h2 (by omega)
        refine ⟨d', ?_, .head h3 h6⟩
        rw [run, h1]
        exact h5

end Parse
end STLRom
