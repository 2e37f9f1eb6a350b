import Verif.Model.ReadPoint
import Verif.Spec.Sci
import Verif.Proofs.Literal
import Verif.Props.FixedPoint

/-!
# Property C88: reading a point
-/

namespace STLRom
namespace Props
open Spec Text

/-- A text that is empty or begins with a blank. -/
def BlankHead (r : List Char) : Prop := ∀ c v, r = c :: v → isBlank c = true

theorem isBlank_cases {c : Char} (h : isBlank c = true) :
    c.isDigit = false ∧ c ≠ '.' ∧ c ≠ 'e' ∧ c ≠ 'E' := by
  simp only [isBlank, Bool.or_eq_true, beq_iff_eq] at h
  rcases h with ((((rfl | rfl) | rfl) | rfl) | rfl) | rfl <;> decide

/-- A literal before anything but a digit or a point. -/
theorem number_tail (l : Lit) (h : l.whole ++ l.frac ≠ []) {r : List Char}
    (hr : ∀ c v, r = c :: v → c.isDigit = false ∧ c ≠ '.') :
    number (l.word ++ r) = (match r with
      | e :: s' =>
        if (e == 'e' || e == 'E') = true then
          (if (digits (signed s').2).1.isEmpty = true then none
            else some (if (signed s').1 = true then l.value / 10 ^ natOf (digits (signed s').2).1
              else l.value * 10 ^ natOf (digits (signed s').2).1), (digits (signed s').2).2)
        else (some l.value, e :: s')
      | [] => (some l.value, [])) := by
  obtain ⟨c, w, hcw, h1, h2, _⟩ := word_head h
  have hsg : signed (l.word ++ r) =
      (l.neg, Lit.chars l.whole ++ ((if l.frac = [] then [] else '.' :: Lit.chars l.frac) ++ r)) := by
    rw [← List.append_assoc]
    unfold Lit.word
    cases l.neg with
    | true => simp [signed]
    | false =>
      simp only [Bool.false_eq_true, if_false, List.nil_append]
      rw [hcw]
      simp only [List.cons_append]
      unfold signed
      split
      · rename_i he; injection he with he _; exact absurd he h1
      · rename_i he; injection he with he _; exact absurd he h2
      · rfl
  have hdg : digits (Lit.chars l.whole ++ ((if l.frac = [] then [] else '.' :: Lit.chars l.frac) ++ r)) =
      (Lit.chars l.whole, (if l.frac = [] then [] else '.' :: Lit.chars l.frac) ++ r) := by
    refine digits_append _ _ (chars_digit _) ?_
    intro c r' he
    split_ifs at he
    · simpa using (hr c r' he).1
    · injection he with he _
      rw [← he]
      decide
  have hd2 : digits (Lit.chars l.frac ++ r) = (Lit.chars l.frac, r) :=
    digits_append _ _ (chars_digit _) fun c r' he => by simpa using (hr c r' he).1
  have hv : (if l.neg = true then -((natOf (Lit.chars l.whole ++ Lit.chars l.frac) : ℚ) /
      10 ^ (Lit.chars l.frac).length) else (natOf (Lit.chars l.whole ++ Lit.chars l.frac) : ℚ) /
      10 ^ (Lit.chars l.frac).length) = l.value := by
    have hl : (Lit.chars l.frac).length = l.frac.length := by simp [Lit.chars]
    rw [chars_append, natOf_chars, nat_append, hl]
    unfold Lit.value
    push_cast
    have hp : (10 : ℚ) ^ l.frac.length ≠ 0 := pow_ne_zero _ (by norm_num)
    split_ifs
    · field_simp
      try ring
    · field_simp
      try ring
  have hok : (!(Lit.chars l.whole ++ Lit.chars l.frac).isEmpty) = true := by
    rw [chars_append]
    cases hx : l.whole ++ l.frac with
    | nil => exact absurd hx h
    | cons k ds => rfl
  unfold Text.number
  rw [hsg]
  simp only [hdg]
  by_cases hf : l.frac = []
  · rw [if_pos hf, List.nil_append]
    rw [hf, show Lit.chars [] = [] from rfl] at hv hok
    cases r with
    | nil => simp only [hok, if_true]; rw [hv]
    | cons b r =>
      have e : ∀ v, b :: r = '.' :: v → False := fun v he => by injection he with he _; exact (hr b r rfl).2 he
      simp only [hok, Bool.true_and, if_true]
      rw [hv]
  · rw [if_neg hf]
    simp only [List.cons_append, hd2, hok]
    cases r with
    | nil => simp only [if_true]; rw [hv]
    | cons b r =>
      simp only [Bool.true_and, if_true]
      rw [hv]

/-- A literal before a blank or the end. -/
theorem number_before (l : Lit) (h : l.whole ++ l.frac ≠ []) {r : List Char} (hr : BlankHead r) :
    number (l.word ++ r) = (some l.value, r) := by
  rw [number_tail l h fun c v e => ⟨(isBlank_cases (hr c v e)).1, (isBlank_cases (hr c v e)).2.1⟩]
  cases r with
  | nil => rfl
  | cons b r =>
    obtain ⟨_, _, b3, b4⟩ := isBlank_cases (hr b r rfl)
    simp only [beq_eq_false_iff_ne.2 b3, beq_eq_false_iff_ne.2 b4, Bool.or_self, Bool.false_eq_true, if_false]

/-- A number with or without exponent, before a blank or the end. -/
theorem number_sci (x : Sci) (h : x.Ok) {r : List Char} (hr : BlankHead r) :
    number (x.word ++ r) = (some x.value, r) := by
  by_cases he : x.exp = []
  · have h1 : x.word = x.lit.word := by simp [Sci.word, he]
    have h2 : x.value = x.lit.value := by simp [Sci.value, he, Lit.nat]
    rw [h1, h2]
    exact number_before x.lit h hr
  · have e : x.word ++ r = x.lit.word ++ ((if x.capital then 'E' else 'e') :: (Sci.signChars x.sign ++ (Lit.chars x.exp ++ r))) := by
      simp [Sci.word, he]
    have hd : digits (Lit.chars x.exp ++ r) = (Lit.chars x.exp, r) :=
      digits_append _ _ (chars_digit _) fun c r' he => by simpa using (isBlank_cases (hr c r' he)).1
    have hs : signed (Sci.signChars x.sign ++ (Lit.chars x.exp ++ r)) =
        (decide (x.sign = some true), Lit.chars x.exp ++ r) := by
      cases hx : x.sign with
      | none =>
        cases hy : x.exp with
        | nil => exact absurd hy he
        | cons k ds =>
          have := digitChar_spec k
          show signed (digitChar k :: (Lit.chars ds ++ r)) = (false, digitChar k :: (Lit.chars ds ++ r))
          unfold signed
          split
          · rename_i he; injection he with he _; exact absurd he this.2.2.2.1
          · rename_i he; injection he with he _; exact absurd he this.2.2.2.2.1
          · rfl
      | some b => cases b <;> rfl
    have hne : (Lit.chars x.exp).isEmpty = false := by
      cases hy : x.exp with
      | nil => exact absurd hy he
      | cons k ds => rfl
    rw [e, number_tail x.lit h (by
      intro c v e
      injection e with e _
      rw [← e]
      cases x.capital <;> decide)]
    have hE : ((if x.capital = true then 'E' else 'e') == 'e' || (if x.capital = true then 'E' else 'e') == 'E') = true := by
      cases x.capital <;> decide
    simp only [hE, if_true, hs, hd, hne, Bool.false_eq_true, if_false, natOf_chars, decide_eq_true_eq]
    unfold Sci.value
    split_ifs
    · rw [zpow_neg, zpow_natCast, div_eq_mul_inv]
    · rw [zpow_natCast]

/-- Skipping blanks before a number. -/
theorem skip_sci (x : Sci) (h : x.Ok) {p : List Char} (hp : ∀ c ∈ p, isBlank c = true)
    (r : List Char) : (p ++ (x.word ++ r)).dropWhile isBlank = x.word ++ r ∧ x.word ++ r ≠ [] := by
  obtain ⟨c, w, hcw, _, _, hb⟩ := word_head h
  have hx : ∃ a u, x.word ++ r = a :: u ∧ isBlank a = false := by
    unfold Sci.word Lit.word
    rw [List.append_assoc, List.append_assoc, List.append_assoc, ← List.append_assoc (Lit.chars _), hcw]
    cases x.lit.neg with
    | true => exact ⟨'-', _, rfl, by decide⟩
    | false => exact ⟨c, _, rfl, hb⟩
  obtain ⟨a, u, e, ha⟩ := hx
  refine ⟨?_, by rw [e]; simp⟩
  rw [List.dropWhile_append_of_pos hp, e, List.dropWhile_cons_of_neg (by simp [ha])]

/-- Reading a number. -/
theorem extract_sci (x : Sci) (h : x.Ok) {p r : List Char} (hp : ∀ c ∈ p, isBlank c = true)
    (hr : BlankHead r) : extract (some (p ++ (x.word ++ r))) = (some x.value, if r = [] then none else some r) := by
  obtain ⟨h1, h2⟩ := skip_sci x h hp r
  have hn := number_sci x h hr
  unfold extract
  simp only
  rw [h1]
  cases e : x.word ++ r with
  | nil => exact absurd e h2
  | cons c s =>
    rw [e] at hn
    simp only [hn]
    cases r with
    | nil => rfl
    | cons b r => rfl

/-- On every input `read_point` writes the numbers that come next in the input, or 0 for what is not a number: it is never
undefined behaviour. -/
def C88_full : Prop := ∀ (f : Fmt) (s : Input), ∃ t v : ℚ,
  (readPoint f s).1 = .ok ("Enter time and value\n".toList ++ Stream.text f (.printPoint t v))

/-- **C88**, when two numbers come next: they are written, and the rest of the input is left, unless the input ends
there. -/
theorem C88_partial (f : Fmt) (a b : Sci) (ha : a.Ok) (hb : b.Ok)
    {p q r : List Char} (hp : ∀ c ∈ p, isBlank c = true) (hq : ∀ c ∈ q, isBlank c = true) (hq' : q ≠ [])
    (hr : BlankHead r) :
    readPoint f (some (p ++ (a.word ++ (q ++ (b.word ++ r))))) =
      (.ok ("Enter time and value\n".toList ++ Stream.text f (.printPoint a.value b.value)),
        if r = [] then none else some r) := by
  have h1 : BlankHead (q ++ (b.word ++ r)) := by
    intro c v e
    cases q with
    | nil => exact absurd rfl hq'
    | cons x q =>
      injection e with e _
      exact hq c (by simp [e])
  unfold readPoint
  rw [extract_sci a ha hp h1, if_neg (by simp [hq'])]
  simp only
  rw [extract_sci b hb hq hr]

/-- A line with two numbers. -/
def pointLine (l : Sci × Sci) : List Char := l.1.word ++ ' ' :: (l.2.word ++ ['\n'])

/-- Lines of two numbers each are read one per call. -/
theorem C88_lines_partial (f : Fmt) (L : List (Sci × Sci))
    (h : ∀ l ∈ L, l.1.Ok ∧ l.2.Ok) :
    readPoints L.length f (some (L.flatMap pointLine)) =
      .ok (L.map fun l => "Enter time and value\n".toList ++ Stream.text f (.printPoint l.1.value l.2.value)) := by
  have key : ∀ (L : List (Sci × Sci)) (f : Fmt) (p : List Char), (∀ c ∈ p, isBlank c = true) →
      (∀ l ∈ L, l.1.Ok ∧ l.2.Ok) →
      readPoints L.length f (some (p ++ L.flatMap pointLine)) =
        .ok (L.map fun l => "Enter time and value\n".toList ++ Stream.text f (.printPoint l.1.value l.2.value)) := by
    intro L
    induction L with
    | nil => intro f p _ _; rfl
    | cons l L ih =>
      intro f p hp h
      obtain ⟨h1, h2⟩ := h l (by simp)
      have e : p ++ (l :: L).flatMap pointLine =
          p ++ (l.1.word ++ ([' '] ++ (l.2.word ++ (['\n'] ++ L.flatMap pointLine)))) := by
        simp [pointLine, List.flatMap_cons]
      have hr := C88_partial f l.1 l.2 h1 h2 (p := p) (q := [' ']) (r := ['\n'] ++ L.flatMap pointLine) hp
        (by simp [isBlank]) (by simp) (by intro c v e; injection e with e _; rw [← e]; decide)
      rw [e, List.length_cons, readPoints, hr]
      have := ih (Stream.after f (.printPoint 0 0)) ['\n'] (by simp [isBlank]) fun l hl => h l (by simp [hl])
      simp only [List.cons_append, List.nil_append, reduceCtorEq, if_false] at this ⊢
      rw [this]
      rfl
  simpa using key L f [] (by simp) h

/-- Once the input is used up or something else than a number was read, every call is undefined behaviour. -/
theorem C88_stuck (f : Fmt) : readPoint f none = (.error .ub, none) := rfl

theorem number_none (c : Char) (r : List Char) (c1 : c.isDigit = false) (c2 : c ≠ '.') (c3 : c ≠ '-') (c4 : c ≠ '+') :
    number (c :: r) = (none, c :: r) := by
  have hs : signed (c :: r) = (false, c :: r) := by
    unfold signed
    split
    · rename_i he; injection he with he _; exact absurd he c3
    · rename_i he; injection he with he _; exact absurd he c4
    · rfl
  have hd : digits (c :: r) = ([], c :: r) := by simp [digits, c1]
  unfold Text.number
  rw [hs]
  simp only [hd]
  have e : ∀ v, c :: r = '.' :: v → False := fun v he => by injection he with he _; exact c2 he
  simp

/-- Something that begins like no number, after a number: 0 is taken for it, and all later calls are undefined
behaviour. -/
theorem C88_zero_false (f : Fmt) (a : Sci) (ha : a.Ok) (c : Char) (r : List Char)
    (hc : c.isDigit = false ∧ c ≠ '.' ∧ c ≠ '-' ∧ c ≠ '+' ∧ isBlank c = false) :
    readPoint f (some (a.word ++ ' ' :: c :: r)) =
      (.ok ("Enter time and value\n".toList ++ Stream.text f (.printPoint a.value 0)), none) ∧
    ∀ n, readPoints (n + 2) f (some (a.word ++ ' ' :: c :: r)) = .error .ub := by
  obtain ⟨c1, c2, c3, c4, c5⟩ := hc
  have h1 : BlankHead (' ' :: c :: r) := by intro x v e; injection e with e _; rw [← e]; decide
  have h2 := extract_sci a ha (p := []) (by simp) h1
  rw [List.nil_append, if_neg (by simp)] at h2
  have hn := number_none c r c1 c2 c3 c4
  have h3 : extract (some (' ' :: c :: r)) = (some 0, none) := by
    unfold extract
    simp only
    rw [List.dropWhile_cons_of_pos (by decide), List.dropWhile_cons_of_neg (by simp [c5])]
    simp only [hn]
  have h4 : readPoint f (some (a.word ++ ' ' :: c :: r)) =
      (.ok ("Enter time and value\n".toList ++ Stream.text f (.printPoint a.value 0)), none) := by
    unfold readPoint
    rw [h2]
    simp only
    rw [h3]
  refine ⟨h4, fun n => ?_⟩
  rw [readPoints, h4]
  rfl

/-- `-1.5`. -/
def litA : Sci := ⟨⟨true, [1], [5]⟩, false, none, []⟩

/-- `2E+1`. -/
def litB : Sci := ⟨⟨false, [2], []⟩, true, some false, [1]⟩

example : readPoint Fmt.init (some " -1.5\n2E+1\n7".toList) =
    (.ok "Enter time and value\nTime -1.50000 Value 20.00000\n".toList, some "\n7".toList) :=
  (C88_partial Fmt.init litA litB (by simp [Sci.Ok, litA]) (by simp [Sci.Ok, litB]) (p := [' ']) (q := ['\n']) (r := "\n7".toList) (by decide)
    (by decide) (by decide) (by intro c v e; injection e with e _; rw [← e]; decide)).trans (by decide +kernel)

example : readPoints 2 Fmt.init (some "-1.5 2E+1\n2E+1 -1.5\n".toList) =
    .ok ["Enter time and value\nTime -1.50000 Value 20.00000\n".toList,
      "Enter time and value\nTime 20.00000 Value -1.50000\n".toList] :=
  (C88_lines_partial Fmt.init [(litA, litB), (litB, litA)] (by simp [Sci.Ok, litA, litB])).trans (by decide +kernel)

example : readPoints 2 Fmt.init (some "2E+1 x 1 2\n".toList) = .error .ub :=
  (C88_zero_false Fmt.init litB (by simp [Sci.Ok, litB]) 'x' " 1 2\n".toList (by decide)).2 0

/-- One number and the end of the input. -/
theorem C88_false : ¬ C88_full := by
  intro h
  obtain ⟨t, v, h⟩ := h Fmt.init (some "1\n".toList)
  have e : (readPoint Fmt.init (some "1\n".toList)).1 = .error .ub := by decide +kernel
  rw [e] at h
  cases h

end Props
end STLRom
