import Mathlib.Tactic.Ring
import Mathlib.Tactic.FieldSimp
import Mathlib.Tactic.FinCases
import Verif.Proofs.Words
import Verif.Props.Tools
import Verif.Spec.Fml

/-!
# Literals and names: how they scan and what number they hold
-/

namespace STLRom
namespace Props
open Scan Text Parse Spec

/-- The character of a digit. -/
def digitChar (k : Fin 10) : Char := Char.ofNat (48 + k.val)

theorem digitChar_spec : ∀ k : Fin 10, (digitChar k).isDigit = true ∧ (digitChar k).toNat = 48 + k.val ∧
    byte (digitChar k) = 48 + k.val ∧ digitChar k ≠ '-' ∧ digitChar k ≠ '+' ∧
    isBlank (digitChar k) = false ∧ Re.inCls false [(48, 57)] (min (digitChar k).toNat 255) = true := by
  decide

theorem min_of_accept {u : List Char} {n : ℕ} (hm : RuleMatches n u)
    (ha : yyAccept.getD (reach u) 0 = n) (m : ℕ) (h : RuleMatches m u) : n ≤ m := by
  have hr := read_reach (u := u) (w := []) (n := n) (by simpa using hm)
  have hv := (hr.2 m []).2 (by simpa using h)
  rcases ruleNow_spec (sorted_live hr.1).1 (sorted_live hr.1).2 with ⟨_, h0⟩ | ⟨_, _, h2⟩
  · exact absurd hv (h0 m)
  · rw [← accept_live hr.1, ha] at h2
    exact h2 m hv

theorem reach_append (u v : List Char) :
    reach (u ++ v) = v.foldl (fun s c => next s (cls (byte c))) (reach u) := by
  simp [reach, List.foldl_append]

theorem next_digit : ∀ k : Fin 10, next 1 (cls (48 + k.val)) = 18 ∧ next 18 (cls (48 + k.val)) = 34 ∧
    next 34 (cls (48 + k.val)) = 34 ∧ next 16 (cls (48 + k.val)) = 34 ∧
    next 17 (cls (48 + k.val)) = 36 ∧ next 33 (cls (48 + k.val)) = 36 ∧
    next 36 (cls (48 + k.val)) = 36 := by
  decide +kernel

/-- Reading digits. -/
def rd (s : ℕ) (ds : List (Fin 10)) : ℕ := (Lit.chars ds).foldl (fun s c => next s (cls (byte c))) s

theorem rd_cons (s : ℕ) (k : Fin 10) (ds : List (Fin 10)) :
    rd s (k :: ds) = rd (next s (cls (48 + k.val))) ds := by
  unfold rd Lit.chars
  rw [List.map_cons, List.foldl_cons]
  have := (digitChar_spec k).2.2.1
  unfold digitChar at this
  rw [this]

theorem rd_34 (ds : List (Fin 10)) : rd 34 ds = 34 := by
  induction ds with
  | nil => rfl
  | cons k ds ih => rw [rd_cons, (next_digit k).2.2.1, ih]

theorem rd_36 (ds : List (Fin 10)) : rd 36 ds = 36 := by
  induction ds with
  | nil => rfl
  | cons k ds ih => rw [rd_cons, (next_digit k).2.2.2.2.2.2, ih]

theorem rd_whole (neg : Bool) (ds : List (Fin 10)) :
    rd (if neg then 16 else 1) ds = (if neg then 16 else 1) ∧ ds = [] ∨
    (rd (if neg then 16 else 1) ds = 18 ∨ rd (if neg then 16 else 1) ds = 34) ∧ ds ≠ [] := by
  cases ds with
  | nil => exact .inl ⟨rfl, rfl⟩
  | cons k ds =>
    refine .inr ⟨?_, by simp⟩
    cases neg
    · simp only [Bool.false_eq_true, if_false]
      rw [rd_cons, (next_digit k).1]
      cases ds with
      | nil => exact .inl rfl
      | cons j ds => right; rw [rd_cons, (next_digit j).2.1, rd_34]
    · right
      simp only [if_true]
      rw [rd_cons, (next_digit k).2.2.2.1, rd_34]

theorem reach_whole (l : Lit) : reach ((if l.neg then ['-'] else []) ++ Lit.chars l.whole) =
    rd (if l.neg then 16 else 1) l.whole := by
  rw [reach_append]
  unfold rd
  congr 1
  cases l.neg <;> decide +kernel

theorem next_point : next 1 (cls 46) = 17 ∧ next 16 (cls 46) = 33 ∧ next 18 (cls 46) = 33 ∧
    next 34 (cls 46) = 33 := by decide +kernel

theorem reach_frac (l : Lit) (h : l.frac ≠ []) : reach l.word = 36 := by
  unfold Lit.word
  rw [if_neg h, reach_append, reach_whole, List.foldl_cons]
  have hb : byte '.' = 46 := by decide
  rw [hb]
  change rd (next (rd _ l.whole) (cls 46)) l.frac = 36
  obtain ⟨k, ds, hk⟩ := List.exists_cons_of_ne_nil h
  have key : ∀ s, s = 17 ∨ s = 33 → rd s l.frac = 36 := by
    intro s hs
    rw [hk, rd_cons]
    rcases hs with rfl | rfl
    · rw [(next_digit k).2.2.2.2.1, rd_36]
    · rw [(next_digit k).2.2.2.2.2.1, rd_36]
  apply key
  rcases rd_whole l.neg l.whole with ⟨e, _⟩ | ⟨e | e, _⟩
  · rw [e]; cases l.neg
    · exact .inl next_point.1
    · exact .inr next_point.2.1
  · rw [e]; exact .inr next_point.2.2.1
  · rw [e]; exact .inr next_point.2.2.2

theorem star_digits (ds : List (Fin 10)) : Re.Matches (.star Re.digit) (Lit.chars ds) := by
  induction ds with
  | nil => exact .starNil
  | cons k ds ih => exact .starCons (u := [digitChar k]) (.cls (digitChar_spec k).2.2.2.2.2.2) ih

theorem plus_digits {ds : List (Fin 10)} (h : ds ≠ []) : Re.Matches (.plus Re.digit) (Lit.chars ds) := by
  obtain ⟨k, ds, rfl⟩ := List.exists_cons_of_ne_nil h
  exact .seq (u := [digitChar k]) (.cls (digitChar_spec k).2.2.2.2.2.2) (star_digits ds)

theorem sign_match (neg : Bool) : Re.Matches Re.sign (if neg then ['-'] else []) := by
  cases neg
  · exact .altL .eps
  · exact .altR (.cls (by decide))

theorem rule_lit (l : Lit) (h : l.whole ++ l.frac ≠ []) : ∃ n, (n = 26 ∨ n = 28) ∧
    RuleMatches n l.word ∧ ∀ m, RuleMatches m l.word → n ≤ m := by
  by_cases hf : l.frac = []
  · have hw : l.whole ≠ [] := by simpa [hf] using h
    have hword : l.word = (if l.neg then ['-'] else []) ++ Lit.chars l.whole := by
      unfold Lit.word; simp [hf]
    have hm : RuleMatches 28 l.word :=
      ⟨by decide, _, rfl, hword ▸ .seq (sign_match _) (plus_digits hw)⟩
    have ha : yyAccept.getD (reach l.word) 0 = 28 := by
      rw [hword, reach_whole]
      rcases rd_whole l.neg l.whole with ⟨_, e⟩ | ⟨e | e, _⟩
      · exact absurd e hw
      · rw [e]; decide
      · rw [e]; decide
    exact ⟨28, .inr rfl, hm, min_of_accept hm ha⟩
  · have hword : l.word = (if l.neg then ['-'] else []) ++ (Lit.chars l.whole ++ (['.'] ++ Lit.chars l.frac)) := by
      unfold Lit.word; simp [hf]
    have hm : RuleMatches 26 l.word :=
      ⟨by decide, _, rfl, hword ▸ .seq (sign_match _) (.seq (star_digits _)
        (.seq (.cls (by decide)) (plus_digits hf)))⟩
    have ha : yyAccept.getD (reach l.word) 0 = 26 := by rw [reach_frac l hf]; decide
    exact ⟨26, .inl rfl, hm, min_of_accept hm ha⟩

/-- A literal is one token, with its text. -/
theorem word_lit (d : Driver) (l : Lit) (h : l.whole ++ l.frac ≠ []) :
    Word d l.word ⟨Sym.CONSTANT, some (String.ofList l.word)⟩ := by
  obtain ⟨n, hn, hm, hmin⟩ := rule_lit l h
  exact word_rule hm hmin (.constant (by rcases hn with rfl | rfl <;> decide))

/-- A literal stops before anything but a digit or a point. -/
theorem stops_lit (l : Lit) (h : l.whole ++ l.frac ≠ []) {v : List Char}
    (hv : ∀ c v', v = c :: v' → ¬ (c.isDigit = true ∨ c = '.')) : Stops l.word v := by
  obtain ⟨n, hn, hm, hmin⟩ := rule_lit l h
  have hr := read_reach (u := l.word) (w := []) (by simpa using hm)
  refine stops_jam hm hmin fun c v' he => ?_
  have hk := List.all_eq_true.1 check_number_stop (reach l.word) (by simpa using live_lt hr.1)
  have ha : (yyAccept.getD (reach l.word) 0 == 26 || yyAccept.getD (reach l.word) 0 == 27 ||
      yyAccept.getD (reach l.word) 0 == 28) = true := by
    rw [accept_reach hm hmin]
    rcases hn with rfl | rfl <;> decide
  rw [hr.1, ha] at hk
  simp only [Bool.not_true, Bool.false_or, List.all_eq_true, List.mem_range] at hk
  have hk := hk _ (byte_lt c)
  simp only [Bool.or_eq_true, Bool.and_eq_true, decide_eq_true_eq, beq_iff_eq] at hk
  refine hk.resolve_left fun hb => hv c v' he ?_
  have hc : c.toNat = byte c := by unfold byte at hb ⊢; omega
  have e5 : c.val.toNat = c.toNat := rfl
  simp only [Char.isDigit, Bool.and_eq_true, decide_eq_true_eq, UInt32.le_iff_toNat_le, ge_iff_le]
  have e6 : '0'.val.toNat = 48 := rfl
  have e7 : '9'.val.toNat = 57 := rfl
  rcases hb with hb | hb
  · left; omega
  · right
    exact char_of_toNat (by rw [hc, hb]; rfl)

/-! ## Values -/

theorem natOf_chars (ds : List (Fin 10)) : natOf (Lit.chars ds) = Lit.nat ds := by
  have : ∀ (ds : List (Fin 10)) (n : ℕ), (Lit.chars ds).foldl (fun n c => 10 * n + (c.toNat - 48)) n =
      ds.foldl (fun n d => 10 * n + d.val) n := by
    intro ds
    induction ds with
    | nil => intro n; rfl
    | cons k ds ih =>
      intro n
      have e : (Char.ofNat (48 + k.val)).toNat = 48 + k.val := (digitChar_spec k).2.1
      simp only [Lit.chars, List.map_cons, List.foldl_cons, e, Nat.add_sub_cancel_left]
      exact ih _
  exact this ds 0

theorem nat_append (a b : List (Fin 10)) : Lit.nat (a ++ b) = Lit.nat a * 10 ^ b.length + Lit.nat b := by
  have : ∀ (b : List (Fin 10)) (n : ℕ), b.foldl (fun n d => 10 * n + d.val) n =
      n * 10 ^ b.length + Lit.nat b := by
    intro b
    induction b with
    | nil => intro n; simp [Lit.nat]
    | cons k b ih =>
      intro n
      unfold Lit.nat
      rw [List.foldl_cons, List.foldl_cons, ih, ih (10 * 0 + k.val), List.length_cons, pow_succ]
      ring
  unfold Lit.nat
  rw [List.foldl_append, this b]
  rfl

theorem chars_append (a b : List (Fin 10)) : Lit.chars a ++ Lit.chars b = Lit.chars (a ++ b) := by
  simp [Lit.chars]

theorem chars_digit (ds : List (Fin 10)) : ∀ c ∈ Lit.chars ds, c.isDigit = true := by
  intro c hc
  obtain ⟨k, _, rfl⟩ := List.mem_map.1 hc
  exact (digitChar_spec k).1

/-- First character of a literal without sign. -/
theorem word_head {l : Lit} (h : l.whole ++ l.frac ≠ []) :
    ∃ c w, Lit.chars l.whole ++ (if l.frac = [] then [] else '.' :: Lit.chars l.frac) = c :: w ∧
      c ≠ '-' ∧ c ≠ '+' ∧ isBlank c = false := by
  cases hw : l.whole with
  | nil =>
    have hf : l.frac ≠ [] := by simpa [hw] using h
    exact ⟨'.', Lit.chars l.frac, by simp [hf, Lit.chars], by decide, by decide, by decide⟩
  | cons k ds =>
    have := digitChar_spec k
    exact ⟨digitChar k, _, rfl, this.2.2.2.1, this.2.2.2.2.1, this.2.2.2.2.2.1⟩

theorem number_lit (l : Lit) (h : l.whole ++ l.frac ≠ []) : number l.word = (some l.value, []) := by
  obtain ⟨c, w, hcw, h1, h2, _⟩ := word_head h
  have hsg : signed l.word = (l.neg, Lit.chars l.whole ++ if l.frac = [] then [] else '.' :: Lit.chars l.frac) := by
    unfold Lit.word
    cases l.neg with
    | true => rfl
    | false =>
      simp only [Bool.false_eq_true, if_false, List.nil_append]
      rw [hcw]
      unfold signed
      split
      · rename_i he; injection he with he _; exact absurd he h1
      · rename_i he; injection he with he _; exact absurd he h2
      · rfl
  have hdg : digits (Lit.chars l.whole ++ if l.frac = [] then [] else '.' :: Lit.chars l.frac) =
      (Lit.chars l.whole, if l.frac = [] then [] else '.' :: Lit.chars l.frac) := by
    refine digits_append _ _ (chars_digit _) ?_
    intro c r he
    split_ifs at he
    injection he with he _
    rw [← he]
    decide
  have hd2 : digits (Lit.chars l.frac) = (Lit.chars l.frac, []) := by
    have := digits_append (Lit.chars l.frac) [] (chars_digit _) (by simp)
    rwa [List.append_nil] at this
  have hv : (if l.neg = true then -((natOf (Lit.chars l.whole ++ Lit.chars l.frac) : ℚ) /
      10 ^ (Lit.chars l.frac).length) else (natOf (Lit.chars l.whole ++ Lit.chars l.frac) : ℚ) /
      10 ^ (Lit.chars l.frac).length) = l.value := by
    have hl : (Lit.chars l.frac).length = l.frac.length := by simp [Lit.chars]
    rw [chars_append, natOf_chars, nat_append, hl]
    unfold Lit.value
    push_cast
    have hp : (10 : ℚ) ^ l.frac.length ≠ 0 := pow_ne_zero _ (by norm_num)
    split_ifs
    · field_simp
      try ring
    · field_simp
      try ring
  have hok : (!(Lit.chars l.whole ++ Lit.chars l.frac).isEmpty) = true := by
    rw [chars_append]
    cases hx : l.whole ++ l.frac with
    | nil => exact absurd hx h
    | cons k ds => rfl
  unfold number
  rw [hsg]
  simp only [hdg]
  by_cases hf : l.frac = []
  · rw [if_pos hf]
    rw [hf, show Lit.chars [] = [] from rfl] at hv hok
    simp only [hok, if_true]
    rw [hv]
  · rw [if_neg hf]
    simp only [hd2, hok, if_true]
    rw [hv]

theorem dropBlank_lit (l : Lit) (h : l.whole ++ l.frac ≠ []) : l.word.dropWhile isBlank = l.word := by
  obtain ⟨c, w, hcw, _, _, hb⟩ := word_head h
  unfold Lit.word
  rw [List.append_assoc, hcw]
  cases l.neg with
  | true => rfl
  | false =>
    simp only [Bool.false_eq_true, if_false, List.nil_append]
    rw [List.dropWhile_cons_of_neg (by simp [hb])]

theorem sToD_lit (l : Lit) (h : l.whole ++ l.frac ≠ []) :
    sToD (String.ofList l.word) = some l.value ∧ sToDVal (String.ofList l.word) = l.value := by
  unfold sToD sToDVal
  rw [String.toList_ofList, dropBlank_lit l h, number_lit l h]
  exact ⟨rfl, rfl⟩

/-- A name holds no number. -/
theorem sToD_ident {s : String} (h : IdentWord s.toList) : sToD s = none ∧ sToDVal s = 0 := by
  obtain ⟨c, w, hs, hc, _⟩ := h
  have hb : isBlank c = false := by
    by_contra hb
    simp only [isBlank, Bool.or_eq_true, beq_iff_eq, Bool.not_eq_false] at hb
    rcases hb with ((((rfl | rfl) | rfl) | rfl) | rfl) | rfl <;> exact absurd hc (by decide)
  have hdr : s.toList.dropWhile isBlank = c :: w := by
    rw [hs, List.dropWhile_cons_of_neg (by simp [hb])]
  have hdig : c.isDigit = false := by
    have := byte_alpha hc
    by_contra hd
    rw [Bool.not_eq_false, Char.isDigit] at hd
    simp only [Bool.and_eq_true, decide_eq_true_eq, UInt32.le_iff_toNat_le, ge_iff_le] at hd
    have e1 : '0'.val.toNat = 48 := rfl
    have e2 : '9'.val.toNat = 57 := rfl
    have e5 : c.val.toNat = c.toNat := rfl
    omega
  have hn : (number (c :: w)).1 = none := by
    have hsg : signed (c :: w) = (false, c :: w) := by
      unfold signed
      split
      · rename_i he; injection he with he _; subst he; exact absurd hc (by decide)
      · rename_i he; injection he with he _; subst he; exact absurd hc (by decide)
      · rfl
    have hdg : digits (c :: w) = ([], c :: w) := by rw [digits, hdig]; rfl
    have hp : c ≠ '.' := by rintro rfl; exact absurd hc (by decide)
    unfold number
    rw [hsg]
    simp [hdg, hp]
  unfold sToD sToDVal
  rw [hdr]
  constructor
  · cases hx : number (c :: w) with
    | mk a b =>
      rw [hx] at hn
      simp only at hn
      subst hn
      rfl
  · rw [hn]; rfl

end Props
end STLRom
