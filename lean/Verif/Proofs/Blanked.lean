import Verif.Proofs.ReadProg

/-!
# Texts with blanks between words
-/

namespace STLRom
namespace Props
open Scan Text Parse Spec

/-- The words with a blank after each. -/
def blanked : List (List Char) → List Char
  | [] => []
  | w :: ws => w ++ ' ' :: blanked ws

/-- A word that does not begin a string or a comment. -/
def Plain (w : List Char) : Prop := w ≠ ['"'] ∧ w ≠ ['#']

instance (w : List Char) : Decidable (Plain w) := inferInstanceAs (Decidable (_ ∧ _))

theorem spelled_gap {ws : List (List Char)} {text : List Char} (h : Spelled ws text) :
    Spelled ws (' ' :: text) := by
  cases h with
  | nil hg => exact .nil (.blank (.inl rfl) hg)
  | cons hg hv hs => exact .cons (g := ' ' :: _) (.blank (.inl rfl) hg) hv hs

theorem spelled_blanked {d : Driver} : ∀ {ws : List (List Char)} {ts : List Tok},
    List.Forall₂ (Word d) ws ts → (∀ w ∈ ws, Plain w) → Spelled ws (blanked ws)
  | _, _, .nil, _ => .nil .nil
  | w :: ws, _, .cons ⟨n, h1, h2, h3⟩ hf, hp => by
    obtain ⟨hq, hc⟩ := hp w (by simp)
    have ih := spelled_gap (spelled_blanked hf fun w hw => hp w (by simp [hw]))
    have := Spelled.cons (g := []) .nil (stops_gap h1 h2 h3 hq hc (v := ' ' :: blanked ws) (by
      intro c v he
      simp only [List.cons.injEq] at he
      rw [← he.1]
      decide)) ih
    simpa [blanked] using this

theorem plain_tok {d : Driver} {w : List Char} {k : ℕ} {u : String} (h : Word d w ⟨k, some u⟩) : Plain w := by
  have h1 : Word d ['"'] ⟨Sym.undef, none⟩ :=
    word_sym d (s := "\"") (n := 31) (by decide +kernel) (.other (by decide) (by decide) (by decide))
  have h2 : Word d ['#'] ⟨Sym.undef, none⟩ :=
    word_sym d (s := "#") (n := 31) (by decide +kernel) (.other (by decide) (by decide) (by decide))
  constructor
  · rintro rfl
    have := word_unique h h1
    simp at this
  · rintro rfl
    have := word_unique h h2
    simp at this

theorem plain_num {d : Driver} {n : Num} (h : NumOk d n) : Plain n.word := by
  cases n with
  | lit l => exact plain_tok (word_lit d l h)
  | par p =>
    obtain ⟨h1, h2, x, h3⟩ := h
    exact plain_tok (word_known h1 h2 h3)

theorem plain_name {s : String} (h : Name s) : Plain s.toList := by
  obtain ⟨c, w, hs, hc, _⟩ := h.ident
  rw [hs]
  constructor
  all_goals
    intro he
    simp only [List.cons.injEq] at he
    rw [he.1] at hc
    exact absurd hc (by decide)

theorem plain_key {k : Key} {w : List Char} (h : k.Is w) : Plain w := by
  obtain ⟨s, hs, rfl⟩ := h
  have key : ∀ k : Key, ∀ s ∈ k.spell, Plain s.toList := by
    intro k
    cases k <;> decide
  exact key k s hs

theorem plain_s {d : Driver} {b : Bool} {e : SExp} {ws : List (List Char)} (h : ReadsS b e ws) :
    SOk d e → ∀ w ∈ ws, Plain w := by
  have k1 : Plain ['('] := by decide
  have k2 : Plain [')'] := by decide
  have k3 : Plain ['+'] ∧ Plain ['-'] ∧ Plain ['*'] := by decide
  have k4 : Plain "abs".toList := by decide
  have k5 : Plain ['['] ∧ Plain ['t'] ∧ Plain [']'] := by decide
  induction h with
  | num n => exact fun h => by simpa using plain_num (d := d) h
  | sig x =>
    rintro ⟨h1, _⟩
    simpa only [List.forall_mem_cons, List.not_mem_nil, false_imp_iff, implies_true, and_true] using
      ⟨plain_name h1, k5⟩
  | paren _ ih =>
    intro h
    simpa [List.forall_mem_append, or_imp, forall_and, k1, k2] using ih h
  | single _ ih => exact ih
  | abs _ ih =>
    intro h
    have := ih h
    simp only [List.forall_mem_cons, List.forall_mem_append, List.not_mem_nil, false_imp_iff, implies_true,
      and_true]
    exact ⟨k4, k1, this, k2⟩
  | add _ _ ih1 ih2 =>
    rintro ⟨h1, h2⟩
    simp only [List.forall_mem_cons, List.forall_mem_append]
    exact ⟨ih1 h1, k3.1, ih2 h2⟩
  | sub _ _ ih1 ih2 =>
    rintro ⟨h1, h2⟩
    simp only [List.forall_mem_cons, List.forall_mem_append]
    exact ⟨ih1 h1, k3.2.1, ih2 h2⟩
  | mul _ _ ih1 ih2 =>
    rintro ⟨h1, h2⟩
    simp only [List.forall_mem_cons, List.forall_mem_append]
    exact ⟨ih1 h1, k3.2.2, ih2 h2⟩

theorem plain_i {d : Driver} {a b : Num} {ws : List (List Char)} (h : ReadsI a b ws) (ha : NumOk d a)
    (hb : NumOk d b) : ∀ w ∈ ws, Plain w := by
  have k5 : Plain ['['] ∧ Plain [']'] ∧ Plain [','] := by decide
  cases h
  all_goals
    simp only [List.forall_mem_cons, List.not_mem_nil, false_imp_iff, implies_true, and_true]
  · exact ⟨k5.1, plain_num ha, k5.2.2, plain_num hb, k5.2.1⟩
  · exact ⟨k5.1, plain_num ha, plain_num hb, k5.2.1⟩

theorem plain_f {d : Driver} {k : Cat} {f : Fml} {ws : List (List Char)} (h : ReadsF k f ws) :
    FOk d f → ∀ w ∈ ws, Plain w := by
  have k1 : Plain ['('] := by decide
  have k2 : Plain [')'] := by decide
  induction h with
  | less h1 h2 h3 =>
    rintro ⟨g1, g2⟩
    simp only [List.forall_mem_cons, List.forall_mem_append]
    exact ⟨plain_s h1 g1, plain_key h2, plain_s h3 g2⟩
  | greater h1 h2 h3 =>
    rintro ⟨g1, g2⟩
    simp only [List.forall_mem_cons, List.forall_mem_append]
    exact ⟨plain_s h1 g1, plain_key h2, plain_s h3 g2⟩
  | ref s =>
    rintro ⟨h1, _⟩
    simpa using plain_name h1
  | paren _ ih =>
    intro h
    simpa [List.forall_mem_append, or_imp, forall_and, k1, k2] using ih h
  | ev _ h1 h2 _ ih =>
    rintro ⟨g1, g2, g3⟩
    simp only [List.forall_mem_cons, List.forall_mem_append]
    exact ⟨plain_key h1, plain_i h2 g1 g2, ih g3⟩
  | alw _ h1 h2 _ ih =>
    rintro ⟨g1, g2, g3⟩
    simp only [List.forall_mem_cons, List.forall_mem_append]
    exact ⟨plain_key h1, plain_i h2 g1 g2, ih g3⟩
  | not _ h1 _ ih =>
    intro g
    simp only [List.forall_mem_cons]
    exact ⟨plain_key h1, ih g⟩
  | notAnd h1 _ ih =>
    intro g
    simp only [List.forall_mem_cons]
    exact ⟨plain_key h1, ih g⟩
  | notImplies h1 _ h2 _ ih1 ih2 =>
    rintro ⟨g1, g2⟩
    simp only [List.forall_mem_cons, List.forall_mem_append]
    exact ⟨plain_key h1, ih1 g1, plain_key h2, ih2 g2⟩
  | one _ _ ih => exact ih
  | untl _ _ h1 h2 _ ih1 ih2 =>
    rintro ⟨g1, g2, g3, g4⟩
    simp only [List.forall_mem_cons, List.forall_mem_append]
    exact ⟨ih1 g3, plain_key h1, plain_i h2 g1 g2, ih2 g4⟩
  | chain _ _ ih => exact ih
  | or _ _ h1 _ ih1 ih2 =>
    rintro ⟨g1, g2⟩
    simp only [List.forall_mem_cons, List.forall_mem_append]
    exact ⟨ih1 g1, plain_key h1, ih2 g2⟩
  | implies _ h1 _ ih1 ih2 =>
    rintro ⟨g1, g2⟩
    simp only [List.forall_mem_cons, List.forall_mem_append]
    exact ⟨ih1 g1, plain_key h1, ih2 g2⟩
  | all _ ih => exact ih
  | and _ h1 _ ih1 ih2 =>
    rintro ⟨g1, g2⟩
    simp only [List.forall_mem_cons, List.forall_mem_append]
    exact ⟨ih1 g1, plain_key h1, ih2 g2⟩

theorem plain_param {d : Driver} {p : String} (h : ParamName d p) : Plain p.toList := by
  obtain ⟨_, _, hw⟩ := word_param h
  exact plain_tok hw

theorem plain_rest {d : Driver} : ∀ {l : List (String × Lit)}, AssignOk d l → ∀ w ∈ assignRest l, Plain w
  | [], _ => by simp [assignRest]
  | a :: l, h => by
    obtain ⟨h1, h2⟩ := h a (by simp)
    simp only [assignRest, assignWords, List.forall_mem_cons, List.forall_mem_append, List.not_mem_nil,
      false_imp_iff, implies_true, and_true]
    exact ⟨by decide, ⟨plain_param h1, by decide, plain_tok (word_lit d a.2 h2)⟩,
      plain_rest fun p hp => h p (by simp [hp])⟩

theorem plain_assign {d : Driver} {a : String × Lit} {l : List (String × Lit)} (h : AssignOk d (a :: l)) :
    ∀ w ∈ assignWords a ++ assignRest l, Plain w := by
  have := plain_rest h
  simp only [assignRest, List.forall_mem_cons] at this
  exact this.2

theorem plain_locals {d : Driver} {l : List (String × Lit)} (h : AssignOk d l) : ∀ w ∈ localWords l, Plain w := by
  cases l with
  | nil => simp [localWords]
  | cons a l =>
    have := plain_assign h
    rw [List.forall_mem_append] at this
    simp only [localWords, List.forall_mem_cons, List.forall_mem_append, List.not_mem_nil,
      false_imp_iff, implies_true, and_true]
    exact ⟨by decide, this.1, this.2, by decide⟩

theorem plain_bool (b : Bool) : Plain (boolWord b) := by cases b <;> decide

theorem plain_item {d : Driver} {i : Item} {u : List (List Char)} (hok : ItemOk d i) (hr : ReadsItem i u) :
    ∀ w ∈ u, Plain w := by
  cases hr with
  | full hf =>
    obtain ⟨h1, h2, h3, h4, h5⟩ := hok
    simp only [List.forall_mem_cons, List.forall_mem_append, List.not_mem_nil,
      false_imp_iff, implies_true, and_true]
    exact ⟨plain_name h1.toName, plain_locals h2, by decide, plain_f hf h3, by decide,
      plain_tok (word_quoted d h4), by decide, plain_tok (word_quoted d h5), by decide, plain_bool _, by decide⟩
  | again =>
    obtain ⟨h1, _, _, _, _, h6⟩ := hok
    simp only [List.forall_mem_cons]
    exact ⟨plain_name h1, plain_locals h6⟩

theorem plain_items : ∀ {is : List Item} {d : Driver} {u : List (List Char)}, ItemsOk d is →
    ReadsItems is u → ∀ w ∈ u, Plain w
  | [], _, _, _, hr => by cases hr; simp
  | _ :: _, _, _, hok, hr => by
    cases hr with
    | cons h1 h2 => exact List.forall_mem_append.2 ⟨plain_item hok.1 h1, plain_items hok.2 h2⟩

theorem plain_prog : ∀ {ss : List Stmt} {d₀ d : Driver} {u : List (List Char)}, ProgOk d₀ d ss →
    ReadsProg ss u → ∀ w ∈ u, Plain w
  | [], _, _, _, _, hr => by cases hr; simp
  | s :: ss, d₀, d, _, hok, hr => by
    cases hr with
    | cons h1 h2 =>
      refine List.forall_mem_append.2 ⟨?_, plain_prog hok.2 h2⟩
      obtain ⟨hok, _⟩ := hok
      cases h1 with
      | define hf =>
        simp only [List.forall_mem_cons]
        exact ⟨plain_name hok.1.toName, by decide, plain_f hf hok.2⟩
      | params =>
        rw [List.forall_mem_cons]
        exact ⟨by decide, plain_assign hok⟩
      | @tests id env o i is u v hi his =>
        obtain ⟨g1, g2, g3, g4⟩ := hok
        simp only [List.forall_mem_cons, List.forall_mem_append, List.not_mem_nil,
          false_imp_iff, implies_true, and_true]
        refine ⟨by decide, plain_name g1.toName, by decide, plain_tok (word_quoted d g2), ?_, by decide,
          plain_item g4.1 hi, plain_items g4.2 his, by decide⟩
        cases o with
        | none => simp [optWords]
        | some cb =>
          simp only [optWords, List.forall_mem_cons, List.not_mem_nil, false_imp_iff, implies_true, and_true]
          exact ⟨by decide, plain_tok (word_lit d cb.1 (g3 cb rfl)), by decide, plain_bool _⟩

end Props
end STLRom
