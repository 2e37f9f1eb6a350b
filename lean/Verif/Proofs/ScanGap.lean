import Verif.Proofs.Scanner
import Mathlib.Data.List.Induction

/-!
# Where the automaton stops

Facts about which characters cannot continue a match, for texts with blanks between tokens.
-/

namespace STLRom
namespace Scan
open Spec Spec.Re

/-- The state after reading a word. -/
def reach (u : List Char) : ℕ := u.foldl (fun s c => next s (cls (byte c))) 1

theorem reach_concat (u : List Char) (c : Char) : reach (u ++ [c]) = next (reach u) (cls (byte c)) := by
  simp [reach]

/-- The state reached by a word that some rule can continue has read that word. -/
theorem read_reach {u : List Char} : ∀ {w : List Char} {n : ℕ}, RuleMatches n (u ++ w) →
    Read (reach u) u := by
  induction u using List.reverseRecOn with
  | nil => intro w n _; exact ⟨rfl, fun n w => by
      show VMatches (vec 1) n w ↔ _
      rw [vec_one, vmatches_start]; simp⟩
  | append_singleton u c ih =>
    intro w n h
    have hr := ih (w := c :: w) (n := n) (by simpa using h)
    rw [reach_concat]
    have hstep : ∀ n w, VMatches (dv (byte c) (vec (reach u))) n w ↔
        RuleMatches n (u ++ [c] ++ w) := by
      intro n w
      rw [← vmatches_cons, hr.2]; simp
    rcases step_live hr.1 (byte_lt c) with ⟨_, hd⟩ | ⟨_, hl, hd⟩
    · have := (hstep n w).2 h
      rw [hd] at this
      obtain ⟨r, hr, _⟩ := this
      simp at hr
    · exact ⟨hl, fun n w => by rw [← hd]; exact hstep n w⟩

/-- The least rule matching a word is the one accepted in the state it leads to. -/
theorem accept_reach {u : List Char} {n : ℕ} (h : RuleMatches n u)
    (hmin : ∀ m, RuleMatches m u → n ≤ m) : yyAccept.getD (reach u) 0 = n := by
  have hr := read_reach (u := u) (w := []) (by simpa using h)
  have hv : ∀ n, VMatches (vec (reach u)) n [] ↔ RuleMatches n u := fun n => by
    rw [hr.2]; simp
  rw [accept_live hr.1]
  rcases ruleNow_spec (sorted_live hr.1).1 (sorted_live hr.1).2 with ⟨_, h1⟩ | ⟨_, h1, h2⟩
  · exact absurd ((hv n).2 h) (h1 n)
  · exact le_antisymm (h2 n ((hv n).2 h)) (hmin _ ((hv _).1 h1))

/-- A match is maximal if the text ends there or the automaton jams on the next character. -/
theorem munch_of_jam {u v : List Char} {n : ℕ} (h : RuleMatches n u)
    (hmin : ∀ m, RuleMatches m u → n ≤ m)
    (hj : ∀ c v', v = c :: v' → next (reach u) (cls (byte c)) = jam) :
    Munch (u ++ v) n u v := by
  have hr := read_reach (u := u) (w := []) (by simpa using h)
  refine ⟨rfl, ?_, h, hmin, ?_⟩
  · rintro rfl; exact not_rule_nil n h
  · intro m u' v' he hm
    by_contra hlt
    push Not at hlt
    have hp : u <+: u' := List.prefix_of_prefix_length_le ⟨v, rfl⟩ ⟨v', he.symm⟩ hlt.le
    obtain ⟨w, rfl⟩ := hp
    cases w with
    | nil => simp at hlt
    | cons c w =>
      have hv : v = c :: (w ++ v') := by
        have : u ++ v = u ++ (c :: w ++ v') := by simpa using he
        simpa using this
      have hj' := hj c _ hv
      have h1 := (hr.2 m (c :: w)).2 hm
      rw [vmatches_cons] at h1
      rcases step_live hr.1 (byte_lt c) with ⟨_, hd⟩ | ⟨hj2, _⟩
      · rw [hd] at h1
        obtain ⟨r, hr, _⟩ := h1
        simp at hr
      · exact hj2 hj'

/-- The bytes that can begin a gap: tab, newline, return, space, `#`. -/
def gapBytes : List ℕ := [9, 10, 13, 32, 35]

theorem check_gap : ((List.range 46).all fun s =>
    !live s || s == 8 || s == 9 || !(decide (3 ≤ yyAccept.getD s 0)) || yyAccept.getD s 0 == 30 ||
      gapBytes.all fun b => next s (cls b) == jam) = true := by
  decide +kernel

theorem check_stop : ((List.range 46).all fun s =>
    !live s || !(yyAccept.getD s 0 == 2 || yyAccept.getD s 0 == 30) ||
      (List.range 256).all fun b => next s (cls b) == jam) = true := by
  decide +kernel

theorem check_blank : ((List.range 46).all fun s =>
    !live s || !(yyAccept.getD s 0 == 1) ||
      (List.range 256).all fun b => [9, 13, 32].contains b || next s (cls b) == jam) = true := by
  decide +kernel

theorem check_start : ((List.range 256).all fun b =>
    (!(next 1 (cls b) == 8) || b == 34) && (!(next 1 (cls b) == 9) || b == 35)) = true := by
  decide +kernel

theorem rule31_word {u : List Char} (h : RuleMatches 31 u) : ∃ c, u = [c] := by
  obtain ⟨_, r, hr, hm⟩ := h
  simp only [lexRules] at hr
  injection hr with hr
  subst hr
  obtain ⟨c, rfl, _⟩ := Re.matches_cls.1 hm
  exact ⟨c, rfl⟩

theorem char_of_toNat {c e : Char} (h : c.toNat = e.toNat) : c = e :=
  Char.ext (UInt32.toNat_inj.1 h)

theorem jam_gap {u : List Char} {n : ℕ} (h : RuleMatches n u)
    (hmin : ∀ m, RuleMatches m u → n ≤ m) (h3 : 3 ≤ n) (h30 : n ≠ 30)
    (hq : u ≠ ['"']) (hc : u ≠ ['#']) {c : Char} (hg : byte c ∈ gapBytes) :
    next (reach u) (cls (byte c)) = jam := by
  have hr := read_reach (u := u) (w := []) (by simpa using h)
  have ha := accept_reach h hmin
  have hne : reach u ≠ 8 ∧ reach u ≠ 9 := by
    have key : (reach u = 8 ∨ reach u = 9) → False := by
      intro hs
      have h31 : n = 31 := by
        rw [← ha]
        rcases hs with hs | hs <;> rw [hs] <;> decide
      subst h31
      obtain ⟨e, rfl⟩ := rule31_word h
      have hs' := List.all_eq_true.1 check_start (byte e) (by simpa using byte_lt e)
      have hre : reach [e] = next 1 (cls (byte e)) := rfl
      simp only [Bool.and_eq_true, Bool.or_eq_true, Bool.not_eq_true', beq_eq_false_iff_ne,
        beq_iff_eq, ← hre] at hs'
      rcases hs with hs | hs
      · have hb := hs'.1.resolve_left (by simp [hs])
        refine hq ?_
        rw [char_of_toNat (c := e) (e := '"') (by change e.toNat = 34; unfold byte at hb; omega)]
      · have hb := hs'.2.resolve_left (by simp [hs])
        refine hc ?_
        rw [char_of_toNat (c := e) (e := '#') (by change e.toNat = 35; unfold byte at hb; omega)]
    exact ⟨fun h => key (.inl h), fun h => key (.inr h)⟩
  have hk := List.all_eq_true.1 check_gap (reach u) (by simpa using live_lt hr.1)
  simp only [hr.1, ha, Bool.not_true, Bool.false_or, Bool.or_eq_true, beq_iff_eq, hne.1, hne.2, h30,
    Bool.not_eq_true', decide_eq_false_iff_not, not_true, h3, false_or, List.all_eq_true] at hk
  exact hk _ hg

theorem jam_stop {u : List Char} {n : ℕ} (h : RuleMatches n u)
    (hmin : ∀ m, RuleMatches m u → n ≤ m) (hn : n = 2 ∨ n = 30) (c : Char) :
    next (reach u) (cls (byte c)) = jam := by
  have hr := read_reach (u := u) (w := []) (by simpa using h)
  have hk := List.all_eq_true.1 check_stop (reach u) (by simpa using live_lt hr.1)
  rw [accept_reach h hmin] at hk
  have hn' : (n == 2 || n == 30) = true := by simpa using hn
  simp only [hr.1, hn', Bool.not_true, Bool.false_or] at hk
  simpa using List.all_eq_true.1 hk (byte c) (by simpa using byte_lt c)

theorem jam_blank {u : List Char} (h : RuleMatches 1 u) {c : Char}
    (hc : byte c ∉ [9, 13, 32]) : next (reach u) (cls (byte c)) = jam := by
  have hr := read_reach (u := u) (w := []) (by simpa using h)
  have hk := List.all_eq_true.1 check_blank (reach u) (by simpa using live_lt hr.1)
  rw [accept_reach h fun m hm => hm.1] at hk
  simp only [hr.1, beq_self_eq_true, Bool.not_true, Bool.false_or] at hk
  have h2 := List.all_eq_true.1 hk (byte c) (by simpa using byte_lt c)
  rw [Bool.or_eq_true] at h2
  rcases h2 with h2 | h2
  · exact absurd (by simpa using h2) hc
  · simpa using h2

end Scan
end STLRom
