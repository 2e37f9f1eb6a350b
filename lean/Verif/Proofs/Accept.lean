import Verif.Proofs.Parser
import Verif.Props.Parser
import Verif.Spec.Ypp

/-!
# What an accepting run has read

The symbols on the parser's stack derive, by the rules of the grammar, exactly the tokens shifted
so far.  While the first statement is a definition, the driver stays as it was before the parse.
-/

namespace STLRom
namespace Parse
open Scan Text Props Spec

/-! ## Symbols by number -/

/-- The nonterminals by number (from 42 on). -/
def ntList : List NT :=
  [.constant, .constant_signal, .signal, .signal_atom, .signal_unaryexpr, .signal_multexpr,
   .signal_addexpr, .signal_expr, .stl_atom, .op, .interval, .stl_formula, .assignement,
   .trace_env, .boolean, .param_assignement, .param_assignement_list, .param_assignements,
   .local_param_assignement, .local_param_assignement_list, .local_param_assignements,
   .signal_new, .signal_new_list, .signal_decl, .stl_test, .stl_tests, .trace_test, .start]

/-- A symbol by its number. -/
def gsym (a : ℕ) : GSym := if a < 41 then .t a else .n (ntList.getD (a - 42) .start)

theorem rules_agree : ((List.range 64).all fun i =>
    decide ((yyR1.getD (i + 2) 0) ≥ 42) &&
    decide ((ntList.getD (yyR1.getD (i + 2) 0 - 42) .start, (rhs.getD (i + 2) []).map gsym) ∈ yppRules)) =
      true := by
  decide +kernel

theorem derives_rule {r : ℕ} (h2 : 2 ≤ r) (h65 : r ≤ 65) {w : List ℕ}
    (h : DerivesAll ((rhs.getD r []).map gsym) w) : Derives (gsym (yyR1.getD r 0)) w := by
  have hc := List.all_eq_true.1 rules_agree (r - 2) (List.mem_range.2 (by omega))
  rw [Nat.sub_add_cancel h2] at hc
  simp only [Bool.and_eq_true, decide_eq_true_eq] at hc
  unfold gsym
  rw [if_neg (by omega)]
  exact .rule hc.2 h

theorem derivesAll_append {as bs : List GSym} {u v : List ℕ} (h : DerivesAll as u)
    (h' : DerivesAll bs v) : DerivesAll (as ++ bs) (u ++ v) := by
  induction as generalizing u with
  | nil => cases h; exact h'
  | cons a as ih =>
    cases h with
    | cons h1 h2 =>
      rw [List.cons_append, List.append_assoc]
      exact .cons h1 (ih h2)

theorem derivesAll_one {a : GSym} {u : List ℕ} (h : Derives a u) : DerivesAll [a] u := by
  have := DerivesAll.cons h .nil
  rwa [List.append_nil] at this

/-! ## One round of the loop -/

/-- The rules of formulas do not change the driver. -/
theorem act_pure {d0 d : Driver} {r : ℕ} (h2 : 2 ≤ r) (hr : r ≤ 32) {args : List SVal}
    (ha : List.Forall₂ (Typed d0 d) (rhs.getD r []) args) :
    (∃ v, act d r args = .ok d v) ∨ act d r args = .err d := by
  interval_cases r
  · -- rule 2
    change List.Forall₂ (Typed d0 d) [30] args at ha
    rcases ha with _ | ⟨h1, ha⟩
    cases ha
    obtain ⟨s1, rfl⟩ := h1
    exact .inl ⟨_, rfl⟩
  · -- rule 3
    change List.Forall₂ (Typed d0 d) [31] args at ha
    rcases ha with _ | ⟨h1, ha⟩
    cases ha
    obtain ⟨s1, rfl⟩ := h1
    exact .inl ⟨_, rfl⟩
  · -- rule 4
    change List.Forall₂ (Typed d0 d) [30] args at ha
    rcases ha with _ | ⟨h1, ha⟩
    cases ha
    obtain ⟨s1, rfl⟩ := h1
    exact .inl ⟨_, rfl⟩
  · -- rule 5
    change List.Forall₂ (Typed d0 d) [31] args at ha
    rcases ha with _ | ⟨h1, ha⟩
    cases ha
    obtain ⟨s1, rfl⟩ := h1
    exact .inl ⟨_, rfl⟩
  · -- rule 6
    change List.Forall₂ (Typed d0 d) [34, 3, 16, 4] args at ha
    rcases ha with _ | ⟨h1, ha⟩
    rcases ha with _ | ⟨h2, ha⟩
    rcases ha with _ | ⟨h3, ha⟩
    rcases ha with _ | ⟨h4, ha⟩
    cases ha
    obtain ⟨s1, i1, rfl, e1⟩ := h1
    cases i1 with
    | zero => exact .inr (by rw [act_6, e1])
    | succ i => exact .inl ⟨_, by rw [act_6, e1]⟩
  · -- rule 7
    change List.Forall₂ (Typed d0 d) [44] args at ha
    rcases ha with _ | ⟨h1, ha⟩
    cases ha
    obtain ⟨T1, rfl⟩ := h1
    exact .inl ⟨_, rfl⟩
  · -- rule 8
    change List.Forall₂ (Typed d0 d) [43] args at ha
    rcases ha with _ | ⟨h1, ha⟩
    cases ha
    obtain ⟨T1, rfl⟩ := h1
    exact .inl ⟨_, rfl⟩
  · -- rule 9
    change List.Forall₂ (Typed d0 d) [5, 49, 6] args at ha
    rcases ha with _ | ⟨h1, ha⟩
    rcases ha with _ | ⟨h2, ha⟩
    rcases ha with _ | ⟨h3, ha⟩
    cases ha
    obtain ⟨T2, rfl⟩ := h2
    exact .inl ⟨_, rfl⟩
  · -- rule 10
    change List.Forall₂ (Typed d0 d) [45] args at ha
    rcases ha with _ | ⟨h1, ha⟩
    cases ha
    obtain ⟨T1, rfl⟩ := h1
    exact .inl ⟨_, rfl⟩
  · -- rule 11
    change List.Forall₂ (Typed d0 d) [23, 5, 49, 6] args at ha
    rcases ha with _ | ⟨h1, ha⟩
    rcases ha with _ | ⟨h2, ha⟩
    rcases ha with _ | ⟨h3, ha⟩
    rcases ha with _ | ⟨h4, ha⟩
    cases ha
    obtain ⟨T3, rfl⟩ := h3
    exact .inl ⟨_, rfl⟩
  · -- rule 12
    change List.Forall₂ (Typed d0 d) [46] args at ha
    rcases ha with _ | ⟨h1, ha⟩
    cases ha
    obtain ⟨T1, rfl⟩ := h1
    exact .inl ⟨_, rfl⟩
  · -- rule 13
    change List.Forall₂ (Typed d0 d) [48, 22, 45] args at ha
    rcases ha with _ | ⟨h1, ha⟩
    rcases ha with _ | ⟨h2, ha⟩
    rcases ha with _ | ⟨h3, ha⟩
    cases ha
    obtain ⟨T1, rfl⟩ := h1
    obtain ⟨T3, rfl⟩ := h3
    exact .inl ⟨_, rfl⟩
  · -- rule 14
    change List.Forall₂ (Typed d0 d) [47] args at ha
    rcases ha with _ | ⟨h1, ha⟩
    cases ha
    obtain ⟨T1, rfl⟩ := h1
    exact .inl ⟨_, rfl⟩
  · -- rule 15
    change List.Forall₂ (Typed d0 d) [48, 20, 45] args at ha
    rcases ha with _ | ⟨h1, ha⟩
    rcases ha with _ | ⟨h2, ha⟩
    rcases ha with _ | ⟨h3, ha⟩
    cases ha
    obtain ⟨T1, rfl⟩ := h1
    obtain ⟨T3, rfl⟩ := h3
    exact .inl ⟨_, rfl⟩
  · -- rule 16
    change List.Forall₂ (Typed d0 d) [48, 21, 45] args at ha
    rcases ha with _ | ⟨h1, ha⟩
    rcases ha with _ | ⟨h2, ha⟩
    rcases ha with _ | ⟨h3, ha⟩
    cases ha
    obtain ⟨T1, rfl⟩ := h1
    obtain ⟨T3, rfl⟩ := h3
    exact .inl ⟨_, rfl⟩
  · -- rule 17
    change List.Forall₂ (Typed d0 d) [48] args at ha
    rcases ha with _ | ⟨h1, ha⟩
    cases ha
    obtain ⟨T1, rfl⟩ := h1
    exact .inl ⟨_, rfl⟩
  · -- rule 18
    change List.Forall₂ (Typed d0 d) [49, 51, 49] args at ha
    rcases ha with _ | ⟨h1, ha⟩
    rcases ha with _ | ⟨h2, ha⟩
    rcases ha with _ | ⟨h3, ha⟩
    cases ha
    obtain ⟨T1, rfl⟩ := h1
    obtain ⟨s2, rfl⟩ := h2
    obtain ⟨T3, rfl⟩ := h3
    exact .inl ⟨_, rfl⟩
  · -- rule 19
    change List.Forall₂ (Typed d0 d) [7] args at ha
    rcases ha with _ | ⟨h1, ha⟩
    cases ha
    exact .inl ⟨_, rfl⟩
  · -- rule 20
    change List.Forall₂ (Typed d0 d) [9] args at ha
    rcases ha with _ | ⟨h1, ha⟩
    cases ha
    exact .inl ⟨_, rfl⟩
  · -- rule 21
    change List.Forall₂ (Typed d0 d) [3, 42, 17, 42, 4] args at ha
    rcases ha with _ | ⟨h1, ha⟩
    rcases ha with _ | ⟨h2, ha⟩
    rcases ha with _ | ⟨h3, ha⟩
    rcases ha with _ | ⟨h4, ha⟩
    rcases ha with _ | ⟨h5, ha⟩
    cases ha
    obtain ⟨s2, rfl⟩ := h2
    obtain ⟨s4, rfl⟩ := h4
    exact .inl ⟨_, rfl⟩
  · -- rule 22
    change List.Forall₂ (Typed d0 d) [3, 42, 42, 4] args at ha
    rcases ha with _ | ⟨h1, ha⟩
    rcases ha with _ | ⟨h2, ha⟩
    rcases ha with _ | ⟨h3, ha⟩
    rcases ha with _ | ⟨h4, ha⟩
    cases ha
    obtain ⟨s2, rfl⟩ := h2
    obtain ⟨s3, rfl⟩ := h3
    exact .inl ⟨_, rfl⟩
  · -- rule 23
    change List.Forall₂ (Typed d0 d) [50] args at ha
    rcases ha with _ | ⟨h1, ha⟩
    cases ha
    obtain ⟨T1, rfl⟩ := h1
    exact .inl ⟨_, rfl⟩
  · -- rule 24
    change List.Forall₂ (Typed d0 d) [8, 53] args at ha
    rcases ha with _ | ⟨h1, ha⟩
    rcases ha with _ | ⟨h2, ha⟩
    cases ha
    obtain ⟨T2, rfl⟩ := h2
    exact .inl ⟨_, rfl⟩
  · -- rule 25
    change List.Forall₂ (Typed d0 d) [53, 10, 53] args at ha
    rcases ha with _ | ⟨h1, ha⟩
    rcases ha with _ | ⟨h2, ha⟩
    rcases ha with _ | ⟨h3, ha⟩
    cases ha
    obtain ⟨T1, rfl⟩ := h1
    obtain ⟨T3, rfl⟩ := h3
    exact .inl ⟨_, rfl⟩
  · -- rule 26
    change List.Forall₂ (Typed d0 d) [53, 11, 53] args at ha
    rcases ha with _ | ⟨h1, ha⟩
    rcases ha with _ | ⟨h2, ha⟩
    rcases ha with _ | ⟨h3, ha⟩
    cases ha
    obtain ⟨T1, rfl⟩ := h1
    obtain ⟨T3, rfl⟩ := h3
    exact .inl ⟨_, rfl⟩
  · -- rule 27
    change List.Forall₂ (Typed d0 d) [53, 12, 53] args at ha
    rcases ha with _ | ⟨h1, ha⟩
    rcases ha with _ | ⟨h2, ha⟩
    rcases ha with _ | ⟨h3, ha⟩
    cases ha
    obtain ⟨T1, rfl⟩ := h1
    obtain ⟨T3, rfl⟩ := h3
    exact .inl ⟨_, rfl⟩
  · -- rule 28
    change List.Forall₂ (Typed d0 d) [14, 52, 53] args at ha
    rcases ha with _ | ⟨h1, ha⟩
    rcases ha with _ | ⟨h2, ha⟩
    rcases ha with _ | ⟨h3, ha⟩
    cases ha
    obtain ⟨I2, rfl⟩ := h2
    obtain ⟨T3, rfl⟩ := h3
    exact .inl ⟨_, rfl⟩
  · -- rule 29
    change List.Forall₂ (Typed d0 d) [13, 52, 53] args at ha
    rcases ha with _ | ⟨h1, ha⟩
    rcases ha with _ | ⟨h2, ha⟩
    rcases ha with _ | ⟨h3, ha⟩
    cases ha
    obtain ⟨I2, rfl⟩ := h2
    obtain ⟨T3, rfl⟩ := h3
    exact .inl ⟨_, rfl⟩
  · -- rule 30
    change List.Forall₂ (Typed d0 d) [53, 15, 52, 53] args at ha
    rcases ha with _ | ⟨h1, ha⟩
    rcases ha with _ | ⟨h2, ha⟩
    rcases ha with _ | ⟨h3, ha⟩
    rcases ha with _ | ⟨h4, ha⟩
    cases ha
    obtain ⟨T1, rfl⟩ := h1
    obtain ⟨I3, rfl⟩ := h3
    obtain ⟨T4, rfl⟩ := h4
    exact .inl ⟨_, rfl⟩
  · -- rule 31
    change List.Forall₂ (Typed d0 d) [5, 53, 6] args at ha
    rcases ha with _ | ⟨h1, ha⟩
    rcases ha with _ | ⟨h2, ha⟩
    rcases ha with _ | ⟨h3, ha⟩
    cases ha
    obtain ⟨T2, rfl⟩ := h2
    exact .inl ⟨_, rfl⟩
  · -- rule 32
    change List.Forall₂ (Typed d0 d) [32] args at ha
    rcases ha with _ | ⟨h1, ha⟩
    cases ha
    obtain ⟨s1, T1, rfl, e1⟩ := h1
    exact .inl ⟨_, by rw [act_32, e1]⟩

/-- The lookahead and the unread text after a token has been read if one was needed. -/
def Looked (p : PState) (l : Option (ℕ × SVal)) (i : List Char) : Prop :=
  (l = p.look ∧ i = p.input) ∨ (p.look = none ∧ ∃ t, Lexes p.drv p.input t i ∧ l = some (tokVal t))

/-- A round shifts the lookahead or reduces by one rule. -/
def Round (p p' : PState) : Prop :=
  ∃ l i, Looked p l i ∧
    ((∃ s la t, l = some la ∧ la.1 < 41 ∧ p.stack.head?.map (·.1) = some s ∧
        shiftTo s la.1 = some t ∧ yyStos.getD t 0 = la.1 ∧
        p' = ⟨p.drv, (t, la.2) :: p.stack, none, i⟩) ∨
     (∃ s r n d' u t, p.stack.head?.map (·.1) = some s ∧ r = yyDefact.getD s 0 ∧ 2 ≤ r ∧ r ≤ 65 ∧
        (yyPact.getD s 0 ≠ pactNinf → l ≠ none) ∧ n = (rhs.getD r []).length ∧
        (p.stack.drop n).head?.map (·.1) = some t ∧
        (p.stack.take n).map (fun e => yyStos.getD e.1 0) = (rhs.getD r []).reverse ∧
        act p.drv r ((p.stack.take n).map (·.2)).reverse = .ok d' u ∧
        (r ≤ 32 → d' = p.drv) ∧ yyStos.getD (goto t (yyR1.getD r 0)) 0 = yyR1.getD r 0 ∧
        p' = ⟨d', (goto t (yyR1.getD r 0), u) :: p.stack.drop n, l, i⟩))

variable {d0 : Driver}

theorem reduce_round {p : PState} (hv : Valid d0 p.drv p.stack) {s : ℕ} {v : SVal}
    {rest : List (ℕ × SVal)} (hs : p.stack = (s, v) :: rest) (h22 : s ≠ 22)
    (hr : yyDefact.getD s 0 ≠ 0) {p' : PState} (h : reduce p (yyDefact.getD s 0) = .next p') :
    ∃ r n d' u t, r = yyDefact.getD s 0 ∧ 2 ≤ r ∧ r ≤ 65 ∧ n = (rhs.getD r []).length ∧
        (p.stack.drop n).head?.map (·.1) = some t ∧
        (p.stack.take n).map (fun e => yyStos.getD e.1 0) = (rhs.getD r []).reverse ∧
        act p.drv r ((p.stack.take n).map (·.2)).reverse = .ok d' u ∧
        (r ≤ 32 → d' = p.drv) ∧ yyStos.getD (goto t (yyR1.getD r 0)) 0 = yyR1.getD r 0 ∧
        p' = ⟨d', (goto t (yyR1.getD r 0), u) :: p.stack.drop n, p.look, p.input⟩ := by
  obtain ⟨s', v', rest', he, hlt⟩ := hv.top
  rw [hs] at he
  obtain ⟨⟨rfl, rfl⟩, rfl⟩ : (s = s' ∧ v = v') ∧ rest = rest' := by simpa using he
  have hc := List.all_eq_true.1 check_reduce s (List.mem_range.2 hlt)
  generalize hR : yyDefact.getD s 0 = r at *
  simp only [checkReduce, hR, Bool.or_eq_true, beq_iff_eq, hr, h22, or_self, if_false,
    Bool.and_eq_true, decide_eq_true_eq, List.all_eq_true, bne_iff_ne] at hc
  obtain ⟨⟨⟨⟨h2, h65⟩, hlen⟩, hpop⟩, hg⟩ := hc
  obtain ⟨t, w, rest', hd, ht, hv', hty, hsy⟩ := pop_spec (rhs.getD r []).reverse [s] p.stack hv
    ⟨s, v, rest, hs, by simp⟩ hpop
  rw [List.length_reverse] at hd ht hty hsy
  have hty' : List.Forall₂ (Typed d0 p.drv) (rhs.getD r [])
      ((p.stack.take (rhs.getD r []).length).map (·.2)).reverse := by
    have := List.rel_reverse hty
    rwa [List.reverse_reverse] at this
  have g10 := (hg t ht).2
  unfold reduce at h
  simp only at h
  rw [← hlen, hd] at h
  simp only at h
  cases ha : act p.drv r (List.map (·.2) (List.take (rhs.getD r []).length p.stack)).reverse with
  | ub => rw [ha] at h; simp at h
  | err d => rw [ha] at h; simp at h
  | ok d' u =>
    rw [ha] at h
    simp only [Step.next.injEq] at h
    refine ⟨r, _, d', u, t, rfl, h2, h65, rfl, by rw [hd]; rfl, hsy, ha, fun hr => ?_, g10, ?_⟩
    · rcases act_pure h2 hr hty' with ⟨v, hv⟩ | hv <;> rw [hv] at ha
      · simp only [Act.ok.injEq] at ha
        exact ha.1.symm
      · simp at ha
    · rw [← h, hd]

theorem default_round {p : PState} (hv : Valid d0 p.drv p.stack) {s : ℕ} {v : SVal}
    {rest : List (ℕ × SVal)} (hs : p.stack = (s, v) :: rest) (h22 : s ≠ 22) {p' : PState}
    (h : default p s = .next p') :
    ∃ r n d' u t, r = yyDefact.getD s 0 ∧ 2 ≤ r ∧ r ≤ 65 ∧ n = (rhs.getD r []).length ∧
        (p.stack.drop n).head?.map (·.1) = some t ∧
        (p.stack.take n).map (fun e => yyStos.getD e.1 0) = (rhs.getD r []).reverse ∧
        act p.drv r ((p.stack.take n).map (·.2)).reverse = .ok d' u ∧
        (r ≤ 32 → d' = p.drv) ∧ yyStos.getD (goto t (yyR1.getD r 0)) 0 = yyR1.getD r 0 ∧
        p' = ⟨d', (goto t (yyR1.getD r 0), u) :: p.stack.drop n, p.look, p.input⟩ := by
  unfold default at h
  simp only at h
  split_ifs at h with hr
  exact reduce_round hv hs h22 hr h

theorem step_round {p p' : PState} (h : Inv d0 p) (hst : step p = .next p') : Round p p' := by
  obtain ⟨s, v, rest, hs, hlt⟩ := h.valid.top
  have hh : p.stack.head?.map (·.1) = some s := by rw [hs]; rfl
  have hlook : ∀ q : PState, q.drv = p.drv → q.stack = p.stack → s ≠ 22 →
      yyPact.getD s 0 ≠ pactNinf → ∀ la : ℕ × SVal, la.1 < 41 → q.look = some la →
      Looked p q.look q.input → withLook q s (yyPact.getD s 0) la = .next p' → Round p p' := by
    intro q hq1 hq2 h22 hn la hla hq3 hl hw
    unfold withLook at hw
    simp only at hw
    split_ifs at hw with hi h0
    · obtain ⟨r, n, d', u, t, e1, e2, e3, e4, e5, e6, e7, e8, e9, e10⟩ :=
        default_round (by rw [hq1, hq2]; exact h.valid) (hq2.trans hs) h22 hw
      rw [hq1] at e7 e8
      rw [hq2] at e5 e6 e7 e10
      exact ⟨q.look, q.input, hl, .inr ⟨s, r, n, d', u, t, hh, e1, e2, e3, by rw [hq3]; simp, e4,
        e5, e6, e7, e8, e9, e10⟩⟩
    · have hc := List.all_eq_true.1 (List.all_eq_true.1 check_shift s (List.mem_range.2 hlt)) la.1
        (List.mem_range.2 hla)
      rw [checkShift, shiftTo_of hn hi] at hc
      simp only [Bool.and_eq_true, beq_iff_eq] at hc
      simp only [Step.next.injEq] at hw
      exact ⟨q.look, q.input, hl, .inl ⟨s, la, _, hq3, hla, hh, shiftTo_of hn hi, hc.1.2,
        by rw [← hw, hq1, hq2]⟩⟩
  unfold step at hst
  rw [hs] at hst
  simp only at hst
  split_ifs at hst with h22 hn
  · obtain ⟨r, n, d', u, t, e1, e2, e3, e4, e5, e6, e7, e8, e9, e10⟩ := default_round h.valid hs h22 hst
    exact ⟨p.look, p.input, .inl ⟨rfl, rfl⟩, .inr ⟨s, r, n, d', u, t, hh, e1, e2, e3,
      fun hn' => absurd hn hn', e4, e5, e6, e7, e8, e9, e10⟩⟩
  · cases hla : p.look with
    | some la =>
      rw [hla] at hst
      exact hlook p rfl rfl h22 hn la (h.look la.1 la.2 hla).1 hla (.inl ⟨rfl, rfl⟩) hst
    | none =>
      rw [hla] at hst
      simp only at hst
      rw [← hs] at hst
      have hL := C42_lex p.drv p.input
      obtain ⟨hok, -, -⟩ := lexes_ok h.keeps hL
      exact hlook { p with
        look := some (tokVal (lex p.drv p.input).1)
        input := (lex p.drv p.input).2 } rfl rfl h22 hn _ hok.lt rfl (.inr ⟨hla, _, hL, rfl⟩) hst

/-! ## The stack derives what has been shifted -/

/-- The states of a stack (top first) above the bottom derive the tokens `ks`. -/
inductive Stk : List (ℕ × SVal) → List ℕ → Prop where
  | base (e) : Stk [e] []
  | push {s v st u w} : Stk st u → Derives (gsym (yyStos.getD s 0)) w → Stk ((s, v) :: st) (u ++ w)

theorem Stk.pop : ∀ (n : ℕ) {st : List (ℕ × SVal)} {ks : List ℕ}, Stk st ks → n < st.length →
    ∃ u w, ks = u ++ w ∧ Stk (st.drop n) u ∧
      DerivesAll (((st.take n).map (fun e => yyStos.getD e.1 0)).reverse.map gsym) w
  | 0, st, ks, h, _ => ⟨ks, [], by simp, h, .nil⟩
  | n + 1, _, _, .base e, hn => by simp at hn
  | n + 1, _, _, .push (s := s) (v := v) (st := st) (u := u) (w := w) h hd, hn => by
    obtain ⟨u', w', rfl, h1, h2⟩ := Stk.pop n h (by simpa using hn)
    refine ⟨u', w' ++ w, by simp, h1, ?_⟩
    rw [List.take_succ_cons, List.map_cons, List.reverse_cons, List.map_append]
    exact derivesAll_append h2 (derivesAll_one hd)

/-- The kind of the lookahead. -/
def lookKind (l : Option (ℕ × SVal)) : List ℕ := (l.map (·.1)).toList

theorem stk_round' {p p' : PState} (h : Round p p') {ks : List ℕ} (hk : Stk p.stack ks) :
    ∃ ks' l i, Stk p'.stack ks' ∧ Looked p l i ∧ i = p'.input ∧
      ks' ++ lookKind p'.look = ks ++ lookKind l ∧
      (∀ s, p.stack.head?.map (·.1) = some s → yyPact.getD s 0 ≠ pactNinf → l ≠ none) := by
  obtain ⟨l, i, hl, ⟨s, la, t, rfl, hla, -, -, h1, rfl⟩ |
    ⟨s, r, n, d', u, t, hh, rfl, h2, h65, hp, rfl, ht, hsy, -, -, hg, rfl⟩⟩ := h
  · refine ⟨ks ++ [la.1], _, i, .push hk ?_, hl, rfl, by simp [lookKind], by simp⟩
    rw [h1]
    unfold gsym
    rw [if_pos hla]
    exact .tok _
  · have hn : (rhs.getD (yyDefact.getD s 0) []).length < p.stack.length := by
      by_contra hn
      rw [List.drop_eq_nil_of_le (by omega)] at ht
      simp at ht
    obtain ⟨u', w', rfl, h3, h4⟩ := hk.pop _ hn
    rw [hsy, List.reverse_reverse] at h4
    refine ⟨u' ++ w', l, i, .push h3 (by rw [hg]; exact derives_rule h2 h65 h4), hl, rfl, rfl, ?_⟩
    intro s' h' hs'
    rw [hh] at h'
    obtain rfl := Option.some.inj h'
    exact hp hs'

theorem stk_round {p p' : PState} (h : Round p p') {ks : List ℕ} (hk : Stk p.stack ks) :
    ∃ ks' l i, Stk p'.stack ks' ∧ Looked p l i ∧ i = p'.input ∧
      ks' ++ lookKind p'.look = ks ++ lookKind l := by
  obtain ⟨ks', l, i, h1, h2, h3, h4, -⟩ := stk_round' h hk
  exact ⟨ks', l, i, h1, h2, h3, h4⟩

/-! ## Reading all tokens -/

theorem _root_.STLRom.Spec.Tokens.snoc {D : Driver → Prop} {text ks r} (h : Tokens D text ks r) {d t r'} (hd : D d)
    (hl : Lexes d r t r') : Tokens D text (ks ++ [t.sym]) r' := by
  induction h with
  | nil => exact .cons hd hl (.nil _)
  | cons h1 h2 _ ih => exact .cons h1 h2 (ih hl)

theorem tokens_looked {D : Driver → Prop} {text ks} {p : PState} (hD : D p.drv)
    (h : Tokens D text (ks ++ lookKind p.look) p.input) {l i} (hl : Looked p l i) :
    Tokens D text (ks ++ lookKind l) i := by
  obtain ⟨rfl, rfl⟩ | ⟨hn, t, hL, rfl⟩ := hl
  · exact h
  · rw [hn] at h
    have e : ks ++ lookKind none = ks := by simp [lookKind]
    rw [e] at h
    exact h.snoc hD hL

/-- Nothing has been read, or the first token was read with the driver before the parse. -/
def Begins (d : Driver) (text : List Char) (p : PState) (ks : List ℕ) : Prop :=
  (p = start d text ∧ ks = []) ∨ ∃ t r v, Lexes d text t r ∧ ks = t.sym :: v

theorem begins_looked {d : Driver} {text : List Char} {p : PState} {ks : List ℕ} {l i}
    (hl : Looked p l i)
    (hp : ∀ s, p.stack.head?.map (·.1) = some s → yyPact.getD s 0 ≠ pactNinf → l ≠ none)
    (hb : Begins d text p (ks ++ lookKind p.look)) (p' : PState) : Begins d text p' (ks ++ lookKind l) := by
  right
  rcases hb with ⟨rfl, hks⟩ | ⟨t, r, v, h1, h2⟩
  · obtain rfl : ks = [] := by simpa [start, lookKind] using hks
    have h0 := hp 0 rfl (by decide +kernel)
    rcases hl with ⟨rfl, rfl⟩ | ⟨-, t, ht, rfl⟩
    · exact absurd rfl h0
    · exact ⟨t, i, [], ht, rfl⟩
  · rcases hl with ⟨rfl, rfl⟩ | ⟨hn, t', ht, rfl⟩
    · exact ⟨t, r, v, h1, h2⟩
    · rw [hn] at h2
      have e : ks ++ lookKind none = ks := by simp [lookKind]
      rw [e] at h2
      exact ⟨t, r, v ++ lookKind (some (tokVal t')), h1, by rw [h2]; rfl⟩

/-- The invariant: the stack derives the shifted tokens, which together with the lookahead are
those at the start of the text. -/
def Shifted (d : Driver) (text : List Char) (p : PState) : Prop :=
  Kept d p.drv ∧ ∃ ks, Stk p.stack ks ∧ Tokens (Kept d) text (ks ++ lookKind p.look) p.input ∧
    Begins d text p (ks ++ lookKind p.look)

theorem shifted_step {d : Driver} {text : List Char} {p p' : PState} (hi : Inv d p)
    (h : Shifted d text p) (hst : step p = .next p') (he : Effect d p.drv p'.drv) :
    Shifted d text p' := by
  obtain ⟨hk, ks, h1, h2, hb⟩ := h
  obtain ⟨ks', l, i, h3, h4, rfl, h5, h6⟩ := stk_round' (step_round hi hst) h1
  refine ⟨kept_of_effect hk he, ks', h3, ?_⟩
  rw [h5]
  exact ⟨tokens_looked hk h2 h4, begins_looked h4 h6 hb _⟩

theorem step_accept {p : PState} {d : Driver} (h : step p = .accept d) :
    ∃ v rest, p.stack = (22, v) :: rest := by
  unfold step at h
  split at h
  · simp at h
  · rename_i s v rest hs
    have hdef : ∀ q : PState, default q s ≠ .accept d := by
      intro q
      unfold default reduce
      simp only
      split_ifs
      · simp
      · split
        · simp
        · split <;> simp
    have hwl : ∀ (q : PState) (n : ℤ) la, withLook q s n la ≠ .accept d := by
      intro q n la
      unfold withLook
      simp only
      split_ifs
      · exact hdef q
      · simp
      · simp
    simp only at h
    split_ifs at h with h1 h2
    · exact ⟨v, rest, by rw [hs, h1]; rfl⟩
    · exact absurd h (hdef _)
    · split at h
      · exact absurd h (hwl _ _ _)
      · exact absurd h (hwl _ _ _)

theorem below_top : below.getD 22 [] = [10] ∧ below.getD 10 [] = [0] ∧ yyStos.getD 22 0 = 0 ∧
    yyStos.getD 10 0 = 69 := by decide +kernel

/-- At the end the stack is `start END`. -/
theorem stk_accept {d0 d : Driver} {v : SVal} {rest} (hv : Valid d0 d ((22, v) :: rest)) {ks : List ℕ}
    (hk : Stk ((22, v) :: rest) ks) : ∃ w, ks = w ++ [Sym.EOF] ∧ Derives (.n .start) w := by
  obtain ⟨b1, b2, b3, b4⟩ := below_top
  have e69 : gsym 69 = .n .start := by decide
  have e0 : gsym 0 = .t 0 := by decide
  cases hv with
  | @push _ _ t w rest hv he hl h0 _ =>
    unfold Edge at he
    rw [b1] at he
    obtain rfl : t = 10 := by simpa using he
    cases hv with
    | @push _ _ t' w' rest hv he hl h0' _ =>
      unfold Edge at he
      rw [b2] at he
      obtain rfl : t' = 0 := by simpa using he
      cases hv with
      | push _ _ _ h0 _ => exact absurd rfl h0
      | base =>
        cases hk with
        | push hk hd =>
          rw [b3, e0] at hd
          cases hd
          cases hk with
          | push hk hd =>
            rw [b4, e69] at hd
            cases hk with
            | base => exact ⟨_, rfl, by simpa using hd⟩
            | push hk _ => cases hk

theorem run_shifted {d : Driver} {text : List Char} : ∀ (n : ℕ) {p : PState} {d' : Driver},
    Inv d p → Shifted d text p → run n p = .accept d' →
    ∃ ks rest, Tokens (Kept d) text (ks ++ [Sym.EOF]) rest ∧ Derives (.n .start) ks ∧
      ∃ t r v, Lexes d text t r ∧ ks ++ [Sym.EOF] = t.sym :: v
  | 0, _, _, _, _, h => by simp [run] at h
  | n + 1, p, d', hi, hs, h => by
    rw [run] at h
    rcases step_good hi with h1 | h1 | ⟨p', h1, h2, h3, h4⟩
    · obtain ⟨v, rest, he⟩ := step_accept h1
      obtain ⟨hk, ks, hk1, hk2, hb⟩ := hs
      have hv := hi.valid
      rw [he] at hv hk1
      obtain ⟨w, rfl, hw⟩ := stk_accept hv hk1
      have hb' : ∃ t r v, Lexes d text t r ∧ w ++ [Sym.EOF] = t.sym :: v := by
        rcases hb with ⟨hb, -⟩ | ⟨t, r, v, h1, h2⟩
        · rw [hb] at he
          simp [start] at he
        · cases w with
          | nil => exact ⟨t, r, [], h1, by simpa using (List.cons.inj h2).1⟩
          | cons k w => exact ⟨t, r, w ++ [Sym.EOF], h1, by simpa using (List.cons.inj h2).1⟩
      cases hl : p.look with
      | none =>
        rw [hl] at hk2
        exact ⟨w, _, by simpa [lookKind] using hk2, hw, hb'⟩
      | some la =>
        rw [hl] at hk2
        obtain ⟨r, hr⟩ : ∃ r, Tokens (Kept d) text (w ++ [Sym.EOF]) r := by
          have key : ∀ (as bs : List ℕ) (t r : List Char), Tokens (Kept d) t (as ++ bs) r →
              ∃ r', Tokens (Kept d) t as r' := by
            intro as
            induction as with
            | nil => exact fun _ t _ _ => ⟨t, .nil t⟩
            | cons a as ih =>
              intro bs t r h
              cases h with
              | cons h1 h2 h3 =>
                obtain ⟨r', h4⟩ := ih _ _ _ h3
                exact ⟨r', .cons h1 h2 h4⟩
          exact key _ _ _ _ hk2
        exact ⟨w, r, hr, hw, hb'⟩
    · rw [h1] at h; simp at h
    · rw [h1] at h
      exact run_shifted n h2 (shifted_step hi hs h1 h3) h

theorem shifted_start (d : Driver) (text : List Char) : Shifted d text (start d text) :=
  ⟨⟨rfl, rfl, rfl, fun _ _ h => h, fun _ h => h, fun _ _ h => h⟩, [], .base _, .nil _, .inl ⟨rfl, rfl⟩⟩

/-! ## While the first statement is a definition -/

/-- The states that can lie above `NEW_ID :=`. -/
def inDef : List ℕ :=
  [31, 32, 33, 34, 35, 36, 37, 38, 39, 40, 41, 42, 43, 44, 45, 46, 47, 48, 58, 59, 60, 61, 62, 63,
   64, 65, 66, 67, 68, 69, 70, 71, 72, 73, 74, 75, 82, 83, 84, 85, 86, 87, 88, 89, 90, 91, 92, 93,
   94, 95, 96, 97, 98, 99, 106, 107, 108, 109, 110, 111, 118, 119, 127]

theorem inDef_up : ((List.range 134).all fun s =>
    !(below.getD s []).any (fun t => t == 20 || inDef.contains t) || inDef.contains s) = true := by
  decide +kernel

theorem inDef_rule : (inDef.all fun s => yyDefact.getD s 0 == 0 || decide (yyDefact.getD s 0 ≤ 32) ||
    (s == 48 && yyDefact.getD s 0 == 33)) = true := by
  decide +kernel

theorem rhs_noAssign : ((List.range 33).all fun r => !(rhs.getD r []).contains 19) = true := by
  decide +kernel

theorem def_tables : yyDefact.getD 0 0 = 0 ∧ yyDefact.getD 4 0 = 0 ∧ yyDefact.getD 20 0 = 0 ∧
    yyDefact.getD 48 0 = 33 ∧ yyStos.getD 20 0 = 19 ∧ below.getD 48 [] = [20] ∧
    yyPact.getD 48 0 ≠ pactNinf ∧ shiftTo 0 33 = some 4 ∧ goto 0 54 = 5 ∧ yyR1.getD 33 0 = 54 ∧
    rhs.getD 33 [] = [33, 19, 53] ∧ yyDefact.getD 5 0 = 59 ∧ yyPact.getD 5 0 = pactNinf ∧
    rhs.getD 59 [] = [54] ∧ yyR1.getD 59 0 = 69 ∧ goto 0 69 = 10 ∧ yyDefact.getD 10 0 = 0 ∧
    20 ∉ inDef ∧ 22 ∉ inDef := by
  decide +kernel

theorem shift4 : ((List.range 41).all fun a => (shiftTo 4 a).all (· == 20)) = true := by decide +kernel

theorem shift10 : ((List.range 41).all fun a => (shiftTo 10 a).all
    fun _ => [0, 24, 26, 33].contains a) = true := by decide +kernel

theorem shift5 : ((List.range 41).all fun a => (shiftTo 5 a).isNone) = true := by decide +kernel

theorem inDef_all {d0 d : Driver} {v v' v0 : SVal} : ∀ {F : List (ℕ × SVal)},
    Valid d0 d (F ++ [(20, v), (4, v'), (0, v0)]) → ∀ e ∈ F, e.1 ∈ inDef
  | [], _ => by simp
  | (s, x) :: F, hv => by
    have step : ∀ t, Edge t s → (t = 20 ∨ t ∈ inDef) → s < 134 → s ∈ inDef := by
      intro t he ht hl
      have hc := List.all_eq_true.1 inDef_up s (List.mem_range.2 hl)
      simp only [Bool.or_eq_true, Bool.not_eq_true', List.any_eq_false, List.contains_eq_mem,
        decide_eq_true_eq, beq_iff_eq] at hc
      rcases hc with hc | hc
      · exact absurd ht (hc t he)
      · exact hc
    cases F with
    | nil =>
      cases hv with
      | push hv he hl h0 _ =>
        intro e hm
        obtain rfl : e = (s, x) := by simpa using hm
        exact step 20 he (.inl rfl) hl
    | cons e F =>
      obtain ⟨t, w⟩ := e
      cases hv with
      | push hv he hl h0 _ =>
        have ih := inDef_all (F := (t, w) :: F) hv
        intro e hm
        rcases List.mem_cons.1 hm with rfl | hm
        · exact step t he (.inr (ih (t, w) (by simp))) hl
        · exact ih e hm

/-- The stack and the lookahead while a definition at the start of the text is read. -/
inductive InDef (text : List Char) (p : PState) : Prop where
  | first : p.stack = [(0, .none)] → (p.look = none ∧ p.input = text ∨ ∃ v, p.look = some (33, v)) →
      InDef text p
  | name {v} : p.stack = [(4, v), (0, .none)] → InDef text p
  | formula {F v v'} : p.stack = F ++ [(20, v), (4, v'), (0, .none)] → InDef text p

/-- Before and after the end of the first definition. -/
inductive FirstDef (d : Driver) (text : List Char) (p : PState) (ks : List ℕ) : Prop where
  | during : p.drv = d → Tokens (· = d) text (ks ++ lookKind p.look) p.input → InDef text p →
      FirstDef d text p ks
  | ending {s v a} : Derives (.n .assignement) ks → Tokens (· = d) text (ks ++ [a]) p.input →
      p.stack = [(s, v), (0, .none)] → s = 5 ∨ s = 10 → lookKind p.look = [a] → FirstDef d text p ks
  | after {w a r z} : Derives (.n .assignement) w → Tokens (· = d) text (w ++ [a]) r →
      a ∈ [0, 24, 26, 33] → ks ++ lookKind p.look = w ++ a :: z →
      Tokens (Kept d) text (ks ++ lookKind p.look) p.input → FirstDef d text p ks

theorem kept_refl (d : Driver) : Kept d d :=
  ⟨rfl, rfl, rfl, fun _ _ h => h, fun _ h => h, fun _ _ h => h⟩

theorem tokens_mono {D D' : Driver → Prop} (h : ∀ d, D d → D' d) {text ks r} (ht : Tokens D text ks r) :
    Tokens D' text ks r := by
  induction ht with
  | nil => exact .nil _
  | cons h1 h2 _ ih => exact .cons (h _ h1) h2 ih

theorem lookKind_looked {p : PState} {l i} (h : Looked p l i) : ∃ z, lookKind l = lookKind p.look ++ z := by
  obtain ⟨rfl, rfl⟩ | ⟨hn, t, hL, rfl⟩ := h
  · exact ⟨[], by simp⟩
  · exact ⟨lookKind (some (tokVal t)), by rw [hn]; simp [lookKind]⟩

theorem firstDef_round {d : Driver} {text : List Char} {p p' : PState}
    (hi : Inv d p) (hkept : Kept d p.drv) (h : Round p p') {ks : List ℕ} (hk : Stk p.stack ks)
    (hnew : ∀ t r, Lexes d text t r → t.sym = 33) (hf : FirstDef d text p ks) :
    ∃ ks', Stk p'.stack ks' ∧ FirstDef d text p' ks' := by
  obtain ⟨t1, t2, t3, t4, t5, t6, t7, t8, t9, t10, t11, t12, t13, t14, t15, t16, t17, t18, t19⟩ :=
    def_tables
  cases hf with
  | @after w a r z h1 h2 h3 h4 hT =>
    obtain ⟨ks', l, i, h5, h6, rfl, h7⟩ := stk_round h hk
    obtain ⟨z', hz⟩ := lookKind_looked h6
    refine ⟨ks', h5, .after (z := z ++ z') h1 h2 h3 ?_ ?_⟩
    · rw [h7, hz, ← List.append_assoc, h4, List.append_assoc, List.cons_append]
    · rw [h7]
      exact tokens_looked hkept hT h6
  | @ending s v a h1 h2 h3 h4 h5 =>
    obtain ⟨l, i, hl, ⟨s', la, t, rfl, hla, hh, hsh, hst, rfl⟩ |
      ⟨s', r', n, d', u, t, hh, rfl, h2', h65, hp, rfl, ht, hsy, ha, hpu, hg, rfl⟩⟩ := h
    · have hss : s' = s := by rw [h3] at hh; simpa using hh.symm
      subst hss
      obtain ⟨z', hz⟩ := lookKind_looked hl
      rw [h5] at hz
      have e1 : la.1 = a := by
        have : [la.1] = a :: z' := hz
        simp only [List.cons.injEq] at this
        exact this.1
      rcases h4 with rfl | rfl
      · have := List.all_eq_true.1 shift5 la.1 (List.mem_range.2 hla)
        rw [hsh] at this
        simp at this
      · have := List.all_eq_true.1 shift10 la.1 (List.mem_range.2 hla)
        rw [hsh] at this
        have hin : i = p.input := by
          obtain ⟨-, rfl⟩ | ⟨hn, -⟩ := hl
          · rfl
          · rw [hn] at h5; simp [lookKind] at h5
        refine ⟨ks ++ [la.1], .push hk ?_, .after h1 h2 (z := []) ?_ ?_ ?_⟩
        · rw [hst]
          unfold gsym
          rw [if_pos hla]
          exact .tok _
        · rw [← e1]
          simpa using this
        · simp [lookKind, e1]
        · rw [← e1, ← hin] at h2
          have := tokens_mono (D := (· = d)) (D' := Kept d) (fun e he => he ▸ kept_refl d) h2
          simpa [lookKind] using this
    · have hss : s' = s := by rw [h3] at hh; simpa using hh.symm
      subst hss
      rcases h4 with rfl | rfl
      · simp only [t12, t14, t15] at ht hsy ha hg ⊢
        have e0 : t = 0 := by
          rw [h3] at ht
          simpa using ht.symm
        subst e0
        have hlk : lookKind l = [a] := by
          obtain ⟨rfl, rfl⟩ | ⟨hn, t, hL, rfl⟩ := hl
          · exact h5
          · rw [hn] at h5; simp [lookKind] at h5
        have hin : i = p.input := by
          obtain ⟨-, rfl⟩ | ⟨hn, -⟩ := hl
          · rfl
          · rw [hn] at h5; simp [lookKind] at h5
        refine ⟨ks, ?_, .ending (s := 10) (v := u) h1 (by rw [← hin] at h2; exact h2) ?_ (.inr rfl) hlk⟩
        · have hkk := hk
          rw [h3] at hkk
          obtain ⟨u', w', e, h6, h7⟩ := hkk.pop 1 (by simp)
          simp only [List.drop_succ_cons, List.drop_zero] at h6
          cases h6 with
          | push h _ => cases h
          | base =>
            rw [t16]
            rw [h3]
            have := Stk.push (s := 10) (v := u) (Stk.base ((0 : ℕ), SVal.none))
              (w := ks) (by
                rw [below_top.2.2.2]
                have := derives_rule (r := 59) (by norm_num) (by norm_num) (w := ks) (by
                  rw [t14]
                  exact derivesAll_one h1)
                rwa [t15] at this)
            simpa using this
        · rw [t16, h3]
          rfl
      · rw [t17] at h2'
        omega
  | during hd hT hin =>
    cases hin with
    | first hst hlk =>
      obtain ⟨l, i, hl, ⟨s', la, t, rfl, hla, hh, hsh, hst', rfl⟩ |
        ⟨s', r', n, d', u, t, hh, rfl, h2', h65, hp, rfl, ht, hsy, ha, hpu, hg, rfl⟩⟩ := h
      · have hss : s' = 0 := by rw [hst] at hh; simpa using hh.symm
        subst hss
        have e33 : la.1 = 33 := by
          rcases hl with ⟨e, rfl⟩ | ⟨hn, tk, hL, e⟩
          · rcases hlk with ⟨hn, -⟩ | ⟨v, hv⟩
            · rw [hn] at e; simp at e
            · rw [hv] at e
              simp only [Option.some.injEq] at e
              rw [e]
          · rcases hlk with ⟨-, hin⟩ | ⟨v, hv⟩
            · rw [hd, hin] at hL
              simp only [Option.some.injEq] at e
              rw [e]
              exact hnew _ _ hL
            · rw [hv] at hn; simp at hn
        rw [e33, t8] at hsh
        obtain rfl : 4 = t := by simpa using hsh
        refine ⟨ks ++ [la.1], .push hk ?_, .during hd ?_ (.name (v := la.2) (by rw [hst]))⟩
        · rw [hst']
          unfold gsym
          rw [if_pos hla]
          exact .tok _
        · have := tokens_looked hd hT hl
          simpa [lookKind] using this
      · have hss : s' = 0 := by rw [hst] at hh; simpa using hh.symm
        subst hss
        rw [t1] at h2'
        omega
    | name hst =>
      obtain ⟨l, i, hl, ⟨s', la, t, rfl, hla, hh, hsh, hst', rfl⟩ |
        ⟨s', r', n, d', u, t, hh, rfl, h2', h65, hp, rfl, ht, hsy, ha, hpu, hg, rfl⟩⟩ := h
      · have hss : s' = 4 := by rw [hst] at hh; simpa using hh.symm
        subst hss
        have hc := List.all_eq_true.1 shift4 la.1 (List.mem_range.2 hla)
        rw [hsh] at hc
        obtain rfl : t = 20 := by simpa using hc
        refine ⟨ks ++ [la.1], .push hk ?_, .during hd ?_ (.formula (F := []) (v := la.2) (by rw [hst]; rfl))⟩
        · rw [hst']
          unfold gsym
          rw [if_pos hla]
          exact .tok _
        · have := tokens_looked hd hT hl
          simpa [lookKind] using this
      · have hss : s' = 4 := by rw [hst] at hh; simpa using hh.symm
        subst hss
        rw [t2] at h2'
        omega
    | @formula F v v' hst =>
      obtain ⟨l, i, hl, ⟨s', la, t, rfl, hla, hh, hsh, hst', rfl⟩ |
        ⟨s', r', n, d', u, t, hh, rfl, h2', h65, hp, rfl, ht, hsy, ha, hpu, hg, rfl⟩⟩ := h
      · refine ⟨ks ++ [la.1], .push hk ?_, .during hd ?_
          (.formula (F := (t, la.2) :: F) (v := v) (v' := v') (by rw [hst]; rfl))⟩
        · rw [hst']
          unfold gsym
          rw [if_pos hla]
          exact .tok _
        · have := tokens_looked hd hT hl
          simpa [lookKind] using this
      · have hF := inDef_all (hst ▸ hi.valid)
        cases F with
        | nil =>
          have hss : s' = 20 := by rw [hst] at hh; simpa using hh.symm
          subst hss
          rw [t3] at h2'
          omega
        | cons e F =>
          have hss : s' = e.1 := by rw [hst] at hh; simpa using hh.symm
          have hm : s' ∈ inDef := hss ▸ hF e (by simp)
          have hc := List.all_eq_true.1 inDef_rule s' hm
          simp only [Bool.or_eq_true, beq_iff_eq, decide_eq_true_eq, Bool.and_eq_true] at hc
          rcases hc with (hc | hc) | ⟨rfl, hc⟩
          · omega
          · have hle : (rhs.getD (yyDefact.getD s' 0) []).length ≤ (e :: F).length := by
              by_contra hgt
              have h19 : 19 ∈ (rhs.getD (yyDefact.getD s' 0) []).reverse := by
                rw [← hsy]
                refine List.mem_map.2 ⟨(20, v), ?_, t5⟩
                rw [hst, List.take_append]
                refine List.mem_append_right _ ?_
                obtain ⟨k, hk⟩ : ∃ k, (rhs.getD (yyDefact.getD s' 0) []).length - (e :: F).length = k + 1 :=
                  ⟨_, (Nat.succ_pred (by omega)).symm⟩
                rw [hk, List.take_succ_cons]
                simp
              have hc' := List.all_eq_true.1 rhs_noAssign _ (List.mem_range.2 (Nat.lt_succ_of_le hc))
              simp only [Bool.not_eq_true', List.contains_eq_mem, decide_eq_false_iff_not] at hc'
              exact hc' (List.mem_reverse.1 h19)
            have hdd := hpu hc
            obtain ⟨ks', l', i', h5, h6, h7, h8⟩ := stk_round
              (p' := ⟨d', (goto t (yyR1.getD (yyDefact.getD s' 0) 0), u) ::
                p.stack.drop (rhs.getD (yyDefact.getD s' 0) []).length, l, i⟩)
              ⟨l, i, hl, .inr ⟨s', _, _, d', u, t, hh, rfl, h2', h65, hp, rfl, ht, hsy, ha, hpu, hg, rfl⟩⟩ hk
            refine ⟨ks', h5, .during (hdd.trans hd) ?_ (.formula (v := v) (v' := v')
              (F := (goto t (yyR1.getD (yyDefact.getD s' 0) 0), u) ::
                (e :: F).drop (rhs.getD (yyDefact.getD s' 0) []).length) ?_)⟩
            · have h9 := tokens_looked hd hT h6
              rw [← h8] at h9
              rw [← h7]
              exact h9
            · simp only
              rw [hst, List.drop_append_of_le_length hle]
              rfl
          · simp only [hc, t11] at ht hsy ha hg ⊢
            have hFnil : F = [] := by
              cases F with
              | nil => rfl
              | cons f F =>
                have hv := hi.valid
                rw [hst] at hv
                obtain ⟨e1, e2⟩ := e
                obtain ⟨f1, f2⟩ := f
                cases hv with
                | push hv he _ _ _ =>
                  simp only at hss
                  subst hss
                  unfold Edge at he
                  rw [t6] at he
                  have h20 : f1 = 20 := by simpa using he
                  have := hF (f1, f2) (by simp)
                  rw [h20] at this
                  exact absurd this t18
            subst hFnil
            have hk3 := hk
            rw [hst] at hk3
            obtain ⟨u', w', rfl, h6, h7⟩ := hk3.pop 3 (by simp)
            have h6' : Stk [(0, SVal.none)] u' := h6
            cases h6' with
            | push h _ => cases h
            | base =>
              have e54 : gsym 54 = .n .assignement := by decide
              have hder : Derives (.n .assignement) ([] ++ w') := by
                have hsy' : ((List.take 3 (e :: [] ++ [(20, v), (4, v'), (0, SVal.none)])).map
                    fun e => yyStos.getD e.1 0) = [53, 19, 33] := by
                  rw [← hst]
                  exact hsy
                rw [hsy'] at h7
                have := derives_rule (r := 33) (by norm_num) (by norm_num) (w := [] ++ w') (by
                  rw [t11]
                  exact h7)
                rwa [t10, e54] at this
              have e0 : t = 0 := by
                rw [hst] at ht
                simpa using ht.symm
              subst e0
              obtain ⟨la, rfl⟩ : ∃ la, l = some la := by
                cases l with
                | none => exact absurd rfl (hp t7)
                | some la => exact ⟨la, rfl⟩
              refine ⟨[] ++ w', ?_, .ending (s := 5) (v := u) (a := la.1) hder
                (tokens_looked hd hT hl) ?_ (.inl rfl) rfl⟩
              · rw [t10, t9, hst]
                refine .push (Stk.base ((0 : ℕ), SVal.none)) ?_
                rw [t10, t9] at hg
                rw [hg, e54]
                exact hder
              · rw [t10, t9, hst]
                rfl

/-- Nothing is read after the end. -/
def NoLook (p : PState) : Prop := ∀ v rest, p.stack = (22, v) :: rest → p.look = none

theorem noLook_round {p p' : PState} (h : Round p p') : NoLook p' := by
  obtain ⟨l, i, hl, ⟨s', la, t, rfl, hla, hh, hsh, hst, rfl⟩ |
    ⟨s', r', n, d', u, t, hh, rfl, h2', h65, hp, rfl, ht, hsy, ha, hpu, hg, rfl⟩⟩ := h
  · intro _ _ _
    rfl
  · intro v rest he
    simp only [List.cons.injEq, Prod.mk.injEq] at he
    rw [he.1.1, below_top.2.2.1] at hg
    have hc := List.all_eq_true.1 rules_agree (yyDefact.getD s' 0 - 2) (List.mem_range.2 (by omega))
    rw [Nat.sub_add_cancel h2'] at hc
    simp only [Bool.and_eq_true, decide_eq_true_eq] at hc
    omega

/-- What an accepting run has read when its text begins with a new name. -/
theorem run_firstDef {d : Driver} {text : List Char} (hnew : ∀ t r, Lexes d text t r → t.sym = 33) :
    ∀ (n : ℕ) {p : PState} {d' : Driver} {ks : List ℕ},
    Inv d p → Kept d p.drv → Stk p.stack ks → FirstDef d text p ks → NoLook p →
    run n p = .accept d' →
    ∃ w v a z r r', Derives (.n .assignement) w ∧ Derives (.n .start) v ∧ a ∈ [0, 24, 26, 33] ∧
      Tokens (· = d) text (w ++ [a]) r ∧ v ++ [0] = w ++ a :: z ∧ Tokens (Kept d) text (v ++ [0]) r'
  | 0, _, _, _, _, _, _, _, _, h => by simp [run] at h
  | n + 1, p, d', ks, hi, hkept, hk, hf, hl, h => by
    rw [run] at h
    rcases step_good hi with h1 | h1 | ⟨p', h1, h2, h3, h4⟩
    · obtain ⟨v, rest, he⟩ := step_accept h1
      have hv := hi.valid
      have hk1 := hk
      rw [he] at hv hk1
      obtain ⟨w, hw, hs⟩ := stk_accept hv hk1
      cases hf with
      | during _ _ hin =>
        exfalso
        cases hin with
        | first hst _ => rw [he] at hst; simp at hst
        | name hst => rw [he] at hst; simp at hst
        | @formula F v v' hst =>
          cases F with
          | nil => rw [he] at hst; simp at hst
          | cons e F =>
            have := inDef_all (hst ▸ hi.valid) e (by simp)
            rw [he] at hst
            simp only [List.cons_append, List.cons.injEq] at hst
            rw [← hst.1] at this
            exact def_tables.2.2.2.2.2.2.2.2.2.2.2.2.2.2.2.2.2.2 this
      | ending _ _ h3 h4 _ =>
        rw [he] at h3
        simp only [List.cons.injEq, Prod.mk.injEq] at h3
        obtain ⟨⟨rfl, -⟩, -⟩ := h3
        simp at h4
      | @after w' a r z h1 h2 h3 h4 h5 =>
        subst hw
        rw [hl v rest he] at h4 h5
        exact ⟨w', w, a, z, r, _, h1, hs, h3, h2, by simpa [lookKind] using h4,
          by simpa [lookKind] using h5⟩
    · rw [h1] at h; simp at h
    · rw [h1] at h
      obtain ⟨ks', h5, h6⟩ := firstDef_round hi hkept (step_round hi h1) hk hnew hf
      exact run_firstDef hnew n h2 (kept_of_effect hkept h3) h5 h6 (noLook_round (step_round hi h1)) h

end Parse
end STLRom
