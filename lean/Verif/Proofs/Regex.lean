import Verif.Spec.Lex
import Mathlib.Tactic.Common

/-!
# Derivatives of regular expressions
-/

namespace STLRom
namespace Spec
namespace Re

def nullable : Re → Bool
  | empty => false
  | eps => true
  | cls _ _ => false
  | seq a b => nullable a && nullable b
  | alt a b => nullable a || nullable b
  | star _ => true

def mkSeq : Re → Re → Re
  | empty, _ => empty
  | _, empty => empty
  | eps, b => b
  | a, b => seq a b

def mkAlt : Re → Re → Re
  | empty, b => b
  | a, empty => a
  | a, b => alt a b

/-- Derivative by a byte. -/
def deriv (x : ℕ) : Re → Re
  | empty => empty
  | eps => empty
  | cls n r => if inCls n r x then eps else empty
  | seq a b => if nullable a then mkAlt (mkSeq (deriv x a) b) (deriv x b) else mkSeq (deriv x a) b
  | alt a b => mkAlt (deriv x a) (deriv x b)
  | star a => mkSeq (deriv x a) (star a)

theorem not_matches_empty {w : List Char} : ¬ Matches empty w := fun h => nomatch h

theorem matches_eps {w : List Char} : Matches eps w ↔ w = [] :=
  ⟨fun h => by cases h; rfl, fun h => h ▸ .eps⟩

theorem matches_cls {n r} {w : List Char} : Matches (cls n r) w ↔
    ∃ c, w = [c] ∧ inCls n r (min c.toNat 255) = true :=
  ⟨fun h => by cases h with | cls h => exact ⟨_, rfl, h⟩, fun ⟨_, h, h'⟩ => h ▸ .cls h'⟩

theorem matches_seq {a b} {w : List Char} : Matches (seq a b) w ↔
    ∃ u v, w = u ++ v ∧ Matches a u ∧ Matches b v :=
  ⟨fun h => by cases h with | seq h h' => exact ⟨_, _, rfl, h, h'⟩,
   fun ⟨_, _, h, h', h''⟩ => h ▸ .seq h' h''⟩

theorem matches_alt {a b} {w : List Char} : Matches (alt a b) w ↔ Matches a w ∨ Matches b w :=
  ⟨fun h => by cases h with
    | altL h => exact .inl h
    | altR h => exact .inr h,
   fun h => h.elim .altL .altR⟩

theorem matches_mkSeq {a b} {w : List Char} : Matches (mkSeq a b) w ↔ Matches (seq a b) w := by
  have e1 : ∀ b, Matches (seq empty b) w ↔ False := fun b =>
    ⟨fun h => by obtain ⟨u, v, _, h, _⟩ := matches_seq.1 h; exact not_matches_empty h, False.elim⟩
  have e2 : ∀ a, Matches (seq a empty) w ↔ False := fun b =>
    ⟨fun h => by obtain ⟨u, v, _, _, h⟩ := matches_seq.1 h; exact not_matches_empty h, False.elim⟩
  have e3 : ∀ b, Matches (seq eps b) w ↔ Matches b w := by
    intro b
    rw [matches_seq]
    constructor
    · rintro ⟨u, v, rfl, h, h'⟩; rw [matches_eps] at h; subst h; simpa using h'
    · intro h; exact ⟨[], w, rfl, .eps, h⟩
  have e0 : Matches empty w ↔ False := ⟨not_matches_empty, False.elim⟩
  cases a <;> cases b <;> simp only [mkSeq, e1, e2, e3, e0]

theorem matches_mkAlt {a b} {w : List Char} : Matches (mkAlt a b) w ↔ Matches (alt a b) w := by
  have e0 : Matches empty w ↔ False := ⟨not_matches_empty, False.elim⟩
  cases a <;> cases b <;> simp only [mkAlt, matches_alt, e0, false_or, or_false]

theorem matches_nil : ∀ {r : Re}, Matches r [] ↔ nullable r = true
  | empty => by simp [nullable, not_matches_empty]
  | eps => by simp [nullable, matches_eps]
  | cls _ _ => by simp [nullable, matches_cls]
  | seq a b => by
    rw [matches_seq]
    simp only [nullable, Bool.and_eq_true, ← matches_nil (r := a), ← matches_nil (r := b)]
    constructor
    · rintro ⟨u, v, h, h1, h2⟩
      obtain ⟨rfl, rfl⟩ := List.append_eq_nil_iff.1 h.symm
      exact ⟨h1, h2⟩
    · rintro ⟨h1, h2⟩; exact ⟨[], [], rfl, h1, h2⟩
  | alt a b => by
    rw [matches_alt]
    simp only [nullable, Bool.or_eq_true, ← matches_nil (r := a), ← matches_nil (r := b)]
  | star a => by simp only [nullable, iff_true]; exact .starNil

theorem star_cons {a : Re} {w' : List Char} (h : Matches (star a) w') : ∀ {c w}, w' = c :: w →
    ∃ u v, w = u ++ v ∧ Matches a (c :: u) ∧ Matches (star a) v := by
  generalize hr : star a = r at h
  induction h with
  | eps | cls | seq | altL | altR => simp at hr
  | starNil => intro c w h; simp at h
  | @starCons b u v h1 h2 _ ih =>
    intro c w h
    simp only [star.injEq] at hr
    subst hr
    cases u with
    | nil => exact ih rfl h
    | cons d u =>
      simp only [List.cons_append, List.cons.injEq] at h
      obtain ⟨rfl, rfl⟩ := h
      exact ⟨u, v, rfl, h1, h2⟩

theorem matches_cons {c : Char} : ∀ {r : Re} {w : List Char},
    Matches r (c :: w) ↔ Matches (deriv (min c.toNat 255) r) w
  | empty, w => by simp [deriv, not_matches_empty]
  | eps, w => by simp [deriv, matches_eps, not_matches_empty]
  | cls n r, w => by
    rw [matches_cls]
    simp only [deriv]
    split_ifs with h
    · simp only [matches_eps]
      constructor
      · rintro ⟨d, hd, _⟩; simp at hd; exact hd.2
      · rintro rfl; exact ⟨c, rfl, h⟩
    · simp only [not_matches_empty, iff_false]
      rintro ⟨d, hd, hd'⟩
      simp only [List.cons.injEq] at hd
      rw [← hd.1] at hd'
      exact h hd'
  | seq a b, w => by
    have hs : Matches (mkSeq (deriv (min c.toNat 255) a) b) w ↔
        ∃ u v, w = u ++ v ∧ Matches a (c :: u) ∧ Matches b v := by
      rw [matches_mkSeq, matches_seq]
      simp only [matches_cons (r := a)]
    have key : Matches (seq a b) (c :: w) ↔
        (∃ u v, w = u ++ v ∧ Matches a (c :: u) ∧ Matches b v) ∨
        (Matches a [] ∧ Matches b (c :: w)) := by
      rw [matches_seq]
      constructor
      · rintro ⟨u, v, h, h1, h2⟩
        cases u with
        | nil => exact .inr ⟨h1, by rw [h]; exact h2⟩
        | cons d u =>
          simp only [List.cons_append, List.cons.injEq] at h
          obtain ⟨rfl, rfl⟩ := h
          exact .inl ⟨u, v, rfl, h1, h2⟩
      · rintro (⟨u, v, rfl, h1, h2⟩ | ⟨h1, h2⟩)
        · exact ⟨c :: u, v, rfl, h1, h2⟩
        · exact ⟨[], c :: w, rfl, h1, h2⟩
    rw [key, ← hs]
    simp only [deriv]
    split_ifs with h
    · rw [matches_mkAlt, matches_alt, matches_cons (r := b)]
      simp only [matches_nil, h, true_and]
    · simp [matches_nil, h]
  | alt a b, w => by
    rw [matches_alt, deriv, matches_mkAlt, matches_alt, matches_cons (r := a),
      matches_cons (r := b)]
  | star a, w => by
    rw [deriv, matches_mkSeq, matches_seq]
    simp only [← matches_cons (r := a)]
    constructor
    · intro h; exact star_cons h rfl
    · rintro ⟨u, v, rfl, h1, h2⟩
      exact .starCons (u := c :: u) h1 h2

end Re
end Spec
end STLRom
