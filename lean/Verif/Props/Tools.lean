import Verif.Model.Tools
import Verif.Proofs.Calls
import Mathlib.Tactic.NormNum
import Mathlib.Tactic.Positivity
import Mathlib.Tactic.Linarith
import Mathlib.Tactic.FieldSimp
import Mathlib.Data.List.Perm.Basic
import Mathlib.Data.Rat.Floor

/-!
# Properties C44, C47, C52: names, trace files, random traces
-/

namespace STLRom
namespace Props
open Text Spec

/-! ## C44: the list of signal names -/

/-- The declared names with their indices, from 1. -/
def numbered (names : List String) : Assoc ℕ := names.zipIdx 1

theorem mem_numbered {names : List String} {s : String} {i : ℕ} :
    (s, i) ∈ numbered names ↔ 1 ≤ i ∧ names[i - 1]? = some s := by
  rw [numbered, List.mk_mem_zipIdx_iff_le_and_getElem?_sub]

theorem numbered_snd (names : List String) : (numbered names).map (·.2) = List.range' 1 names.length := by
  simp [numbered]

theorem fillNames_spec : ∀ (l : Assoc ℕ) (a : List String),
    (∀ p ∈ l, 1 ≤ p.2 ∧ p.2 ≤ a.length) → (l.map (·.2)).Nodup →
    ∃ b, fillNames l a = .ok b ∧ b.length = a.length ∧
      (∀ p ∈ l, b[p.2 - 1]? = some p.1) ∧
      ∀ j, (∀ p ∈ l, p.2 - 1 ≠ j) → b[j]? = a[j]?
  | [], a, _, _ => ⟨a, rfl, rfl, by simp, by simp⟩
  | (s, i) :: l, a, h, hn => by
    have h1 := h (s, i) (by simp)
    simp only [List.map_cons, List.nodup_cons] at hn
    obtain ⟨b, hb, hl, hin, hout⟩ := fillNames_spec l (a.set (i - 1) s)
      (by intro p hp; simpa using h p (by simp [hp])) hn.2
    refine ⟨b, ?_, by simpa using hl, ?_, ?_⟩
    · rw [fillNames, if_pos h1, hb]
    · intro p hp
      rcases List.mem_cons.1 hp with rfl | hp
      · rw [hout]
        · simp only
          rw [List.getElem?_set_self (by simp only at h1; omega)]
        · intro q hq he
          apply hn.1
          have := h q (by simp [hq])
          simp only at h1 he
          exact List.mem_map.2 ⟨q, hq, by omega⟩
      · exact hin p hp
    · intro j hj
      rw [hout j fun p hp => hj p (by simp [hp]), List.getElem?_set_ne (hj (s, i) (by simp))]

/-- Words separated by blanks. -/
def spaced : List String → String
  | [] => ""
  | [s] => s
  | s :: t :: l => s ++ " " ++ spaced (t :: l)

/-- `get_signals_names`: for any non-empty list of declared names, in whatever order the map
is traversed, the names in declaration order separated by blanks. -/
theorem C44_partial {names : List String} {m : Assoc ℕ} (hm : m.Perm (numbered names))
    (hne : names ≠ []) : signalNames m = .ok (spaced names) := by
  have hlen : m.length = names.length := by rw [hm.length_eq]; simp [numbered]
  obtain ⟨b, hb, hl, hin, -⟩ := fillNames_spec m (List.replicate m.length "")
    (by
      intro p hp
      have := (mem_numbered (s := p.1) (i := p.2)).1 (hm.mem_iff.1 hp)
      obtain ⟨h1, h2⟩ := this
      obtain ⟨h3, _⟩ := List.getElem?_eq_some_iff.1 h2
      simp only [List.length_replicate]
      omega)
    (by
      rw [(hm.map _).nodup_iff, numbered_snd]
      exact List.nodup_range')
  have hbn : b = names := by
    apply List.ext_getElem?
    intro j
    by_cases hj : j < names.length
    · have : (names[j], j + 1) ∈ m := hm.mem_iff.2 (mem_numbered.2 ⟨by omega, by simp [hj]⟩)
      rw [← Nat.add_sub_cancel (n := j) (m := 1), hin _ this]
      simp [hj]
    · rw [List.getElem?_eq_none (by simp at hl; omega), List.getElem?_eq_none (by omega)]
  subst hbn
  rw [signalNames, hb]
  cases b with
  | nil => exact absurd rfl hne
  | cons s l =>
    simp only
    congr 1
    have : ∀ (l : List String) (s a : String),
        l.foldl (fun out s => out ++ (" " ++ s)) (a ++ s) = a ++ spaced (s :: l) := by
      intro l
      induction l with
      | nil => intro s a; rfl
      | cons t l ih =>
        intro s a
        rw [List.foldl_cons, ← String.append_assoc, ih, spaced]
        simp only [String.append_assoc]
    simpa using this l s ""

example : ([("b", 2), ("a", 1), ("c", 3)] : Assoc ℕ).Perm (numbered ["a", "b", "c"]) := by decide

/-- With no signal declared, the first element of an array of length 0 is read. -/
theorem C44_false : signalNames (numbered []) = .error .ub ∧ signalNames Driver.init.smap = .error .ub :=
  ⟨rfl, rfl⟩

/-! ## C47: dumping and reading a trace -/

/-- How numbers are written, as far as reading back goes: no white space, and the reader stops
at the blank after it with the value `rd x`.  (`rd x` is `x` only if `x` has few enough digits:
`ofs << x` writes six significant ones.) -/
structure Writes (fmt : ℚ → List Char) (rd : ℚ → ℚ) : Prop where
  ne : ∀ x, fmt x ≠ []
  clean : ∀ x, ∀ c ∈ fmt x, isBlank c = false
  read : ∀ x rest, number (fmt x ++ ' ' :: rest) = (some (rd x), ' ' :: rest)

theorem Writes.newline {fmt rd} (h : Writes fmt rd) (x : ℚ) : '\n' ∉ fmt x := by
  intro hn
  exact absurd (h.clean x _ hn) (by decide)

theorem linesAux_append : ∀ (u acc rest : List Char), '\n' ∉ u →
    linesAux acc (u ++ '\n' :: rest) = (acc.reverse ++ u) :: linesAux [] rest
  | [], acc, rest, _ => by simp [linesAux]
  | c :: u, acc, rest, h => by
    have hc : c ≠ '\n' := fun hc => h (by simp [hc])
    rw [List.cons_append, linesAux, if_neg hc,
      linesAux_append u (c :: acc) rest fun hu => h (by simp [hu])]
    simp

theorem lines_dump {fmt rd} (h : Writes fmt rd) : ∀ data : List (List ℚ),
    lines (dumpTrace fmt data) = data.map fun row => row.flatMap fun x => fmt x ++ [' ']
  | [] => rfl
  | row :: data => by
    have hn : '\n' ∉ row.flatMap fun x => fmt x ++ [' '] := by
      simp only [List.mem_flatMap, List.mem_append, not_exists, not_and, not_or]
      exact fun x _ => ⟨h.newline x, by decide⟩
    have ih := lines_dump h data
    unfold lines dumpTrace at *
    rw [List.flatMap_cons, List.append_assoc, List.singleton_append, linesAux_append _ _ _ hn, ih]
    simp

theorem readRowAux_dump {fmt rd} (h : Writes fmt rd) : ∀ (row : List ℚ) (n : ℕ)
    (pre : List Char), (∀ c ∈ pre, isBlank c = true) → row.length < n →
    readRowAux n (pre ++ row.flatMap fun x => fmt x ++ [' ']) =
      some (row.map (fun x => some (rd x)) ++ [none])
  | [], n, pre, hp, hn => by
    obtain ⟨k, rfl⟩ : ∃ k, n = k + 1 := ⟨n - 1, by simp at hn; omega⟩
    have : (pre ++ ([] : List ℚ).flatMap fun x => fmt x ++ [' ']).dropWhile isBlank = [] := by
      rw [List.dropWhile_append_of_pos hp]; rfl
    rw [readRowAux, this]
    rfl
  | x :: row, n, pre, hp, hn => by
    obtain ⟨k, rfl⟩ : ∃ k, n = k + 1 := ⟨n - 1, by simp at hn; omega⟩
    obtain ⟨c, f, hf⟩ := List.exists_cons_of_ne_nil (h.ne x)
    have hc : isBlank c = false := h.clean x c (by simp [hf])
    have hd : (pre ++ (x :: row).flatMap fun x => fmt x ++ [' ']).dropWhile isBlank =
        fmt x ++ ' ' :: row.flatMap fun x => fmt x ++ [' '] := by
      rw [List.dropWhile_append_of_pos hp, List.flatMap_cons, hf]
      simp [hc]
    have hr := h.read x (row.flatMap fun x => fmt x ++ [' '])
    have ih := readRowAux_dump h row k [' '] (by decide) (by simp at hn; omega)
    rw [readRowAux, hd]
    rw [hf, List.cons_append] at hr ⊢
    simp only
    rw [hr]
    simp only
    rw [← List.singleton_append, ih]
    simp

theorem readRow_dump {fmt rd} (h : Writes fmt rd) (row : List ℚ) :
    readRow (row.flatMap fun x => fmt x ++ [' ']) =
      some (row.map (fun x => some (rd x)) ++ [none]) := by
  have hlen : row.length ≤ (row.flatMap fun x => fmt x ++ [' ']).length := by
    induction row with
    | nil => simp
    | cons x row ih => simp at ih ⊢; omega
  have := readRowAux_dump h row ((row.flatMap fun x => fmt x ++ [' ']).length + 1) [] (by simp)
    (by omega)
  simpa [readRow] using this

/-- What `dump_trace_file` then `read_trace_file` gives on every trace: the values as
written, and one more, indeterminate value at the end of every row. -/
theorem C47_partial {fmt rd} (h : Writes fmt rd) (data : List (List ℚ)) :
    readTrace (dumpTrace fmt data) =
      some (data.map fun row => row.map (fun x => some (rd x)) ++ [none]) := by
  rw [readTrace, lines_dump h]
  induction data with
  | nil => rfl
  | cons row data ih =>
    rw [List.map_cons, List.mapM_cons, readRow_dump h, ih]
    rfl

/-- No trace with a row is read back as it was, whatever the number format. -/
theorem C47_false {fmt rd} (h : Writes fmt rd) (data : List (List ℚ)) (hne : data ≠ []) :
    readTrace (dumpTrace fmt data) ≠ some (data.map fun row => row.map some) := by
  rw [C47_partial h]
  obtain ⟨row, data, rfl⟩ := List.exists_cons_of_ne_nil hne
  intro he
  injection he with he
  injection he with he _
  have := congrArg List.length he
  simp at this

/-! A number format meeting the hypotheses: decimal integers. -/

/-- Decimal digits. -/
def dec (n : ℕ) : List Char :=
  if n < 10 then [Char.ofNat (48 + n)] else dec (n / 10) ++ [Char.ofNat (48 + n % 10)]
decreasing_by omega

theorem digitChar_facts : ∀ k < 10, (Char.ofNat (48 + k)).isDigit = true ∧
    (Char.ofNat (48 + k)).toNat = 48 + k := by decide

theorem dec_isDigit (n : ℕ) : ∀ c ∈ dec n, c.isDigit = true := by
  induction n using Nat.strong_induction_on with
  | _ n ih =>
    rw [dec]
    split_ifs with h
    · intro c hc
      rw [List.mem_singleton.1 hc]
      exact (digitChar_facts n h).1
    · intro c hc
      rcases List.mem_append.1 hc with hc | hc
      · exact ih _ (by omega) c hc
      · rw [List.mem_singleton.1 hc]
        exact (digitChar_facts _ (by omega)).1

theorem dec_ne (n : ℕ) : dec n ≠ [] := by
  rw [dec]; split_ifs <;> simp

theorem natOf_dec (n : ℕ) : natOf (dec n) = n := by
  induction n using Nat.strong_induction_on with
  | _ n ih =>
    rw [dec]
    split_ifs with h
    · simp only [natOf, List.foldl_cons, List.foldl_nil, (digitChar_facts n h).2]; omega
    · have := ih (n / 10) (by omega)
      unfold natOf at this ⊢
      rw [List.foldl_append, this, List.foldl_cons, List.foldl_nil,
        (digitChar_facts (n % 10) (by omega)).2]
      omega

theorem digits_append : ∀ (ds rest : List Char), (∀ c ∈ ds, c.isDigit = true) →
    (∀ c r, rest = c :: r → c.isDigit = false) → digits (ds ++ rest) = (ds, rest)
  | [], [], _, _ => rfl
  | [], c :: r, _, h => by
    rw [List.nil_append, digits, h c r rfl]; rfl
  | c :: ds, rest, h, hr => by
    rw [List.cons_append, digits, if_pos (h c (by simp)),
      digits_append ds rest (fun e he => h e (by simp [he])) hr]

theorem number_digits {ds rest : List Char} (hd : ∀ c ∈ ds, c.isDigit = true) (hne : ds ≠ [])
    (neg : Bool) : number ((if neg then ['-'] else []) ++ ds ++ ' ' :: rest) =
      (some (if neg then -(natOf ds : ℚ) else natOf ds), ' ' :: rest) := by
  have hsg : signed ((if neg then ['-'] else []) ++ ds ++ ' ' :: rest) = (neg, ds ++ ' ' :: rest) := by
    cases neg with
    | true => rfl
    | false =>
      obtain ⟨c, ds', rfl⟩ := List.exists_cons_of_ne_nil hne
      have hc := hd c (by simp)
      simp only [Bool.false_eq_true, if_false, List.nil_append, List.cons_append]
      unfold signed
      split
      · rename_i he; injection he with he _; subst he; exact absurd hc (by decide)
      · rename_i he; injection he with he _; subst he; exact absurd hc (by decide)
      · rfl
  have hdg : digits (ds ++ ' ' :: rest) = (ds, ' ' :: rest) :=
    digits_append ds _ hd (by
      intro c r he
      injection he with he _
      subst he
      decide)
  unfold number
  rw [hsg]
  simp only [hdg]
  have he : ds.isEmpty = false := by simpa using hne
  simp [he]

theorem signed_append {ds : List Char} (hd : ∀ c ∈ ds, c.isDigit = true ∨ c = '.') (hne : ds ≠ [])
    (neg : Bool) (rest : List Char) :
    signed ((if neg then ['-'] else []) ++ ds ++ rest) = (neg, ds ++ rest) := by
  cases neg with
  | true => rfl
  | false =>
    obtain ⟨c, ds', rfl⟩ := List.exists_cons_of_ne_nil hne
    have hc := hd c (by simp)
    simp only [Bool.false_eq_true, if_false, List.nil_append, List.cons_append]
    unfold signed
    split
    · rename_i he; injection he with he _; subst he; exact absurd hc (by decide)
    · rename_i he; injection he with he _; subst he; exact absurd hc (by decide)
    · rfl

/-- A field of a trace file in scientific notation, as `ofs << x` writes large and small values:
sign, digits with a point, and a signed exponent. -/
theorem C47_scientific {d1 d2 d3 rest : List Char} (h1 : ∀ c ∈ d1, c.isDigit = true)
    (h2 : ∀ c ∈ d2, c.isDigit = true) (h3 : ∀ c ∈ d3, c.isDigit = true) (hne : d1 ≠ [])
    (hne3 : d3 ≠ []) (neg eneg : Bool) :
    number ((if neg then ['-'] else []) ++ d1 ++
        ('.' :: (d2 ++ ('e' :: (if eneg then '-' else '+') :: (d3 ++ ' ' :: rest))))) =
      (some ((if neg then -1 else 1) * ((natOf (d1 ++ d2) : ℚ) / 10 ^ d2.length) *
        (10 : ℚ) ^ (if eneg then -(natOf d3 : ℤ) else natOf d3)), ' ' :: rest) := by
  have hsp : ∀ (c : Char), c.isDigit = false → ∀ (l : List Char) (c' : Char) (r : List Char),
      c :: l = c' :: r → c'.isDigit = false := by
    intro c hc l c' r he
    injection he with he _
    rw [← he]
    exact hc
  have e1 := digits_append d1 ('.' :: (d2 ++ ('e' :: (if eneg then '-' else '+') :: (d3 ++ ' ' :: rest))))
    h1 (hsp '.' (by decide) _)
  have e2 := digits_append d2 ('e' :: (if eneg then '-' else '+') :: (d3 ++ ' ' :: rest)) h2
    (hsp 'e' (by decide) _)
  have e3 := digits_append d3 (' ' :: rest) h3 (hsp ' ' (by decide) _)
  have es : signed ((if eneg then '-' else '+') :: (d3 ++ ' ' :: rest)) = (eneg, d3 ++ ' ' :: rest) := by
    cases eneg <;> rfl
  have he : (d1 ++ d2).isEmpty = false := by simp [hne]
  have he3 : d3.isEmpty = false := by simpa using hne3
  unfold number
  rw [signed_append (fun c hc => .inl (h1 c hc)) hne]
  simp only [e1, e2, he, es, e3, he3, Bool.not_false, beq_self_eq_true, Bool.true_or, Bool.and_self,
    if_true, Bool.false_eq_true, if_false]
  congr 2
  cases neg <;> cases eneg <;> simp [div_eq_mul_inv]

/-- `-1.25e-03` is read as -1/800. -/
example : number "-1.25e-03 7".toList = (some (-1 / 800), " 7".toList) := by
  have := C47_scientific (d1 := "1".toList) (d2 := "25".toList) (d3 := "03".toList) (rest := ['7'])
    (by decide) (by decide) (by decide) (by decide) (by decide) true true
  have e : number "-1.25e-03 7".toList = _ := this
  rw [e]
  decide +kernel

/-- Integer part in decimal. -/
def fmtInt (x : ℚ) : List Char := (if ⌊x⌋ < 0 then ['-'] else []) ++ dec ⌊x⌋.natAbs

theorem writes_fmtInt : Writes fmtInt fun x => ⌊x⌋ where
  ne := fun x => by simp [fmtInt, dec_ne]
  clean := by
    intro x c hc
    have : c = '-' ∨ c.isDigit = true := by
      rcases List.mem_append.1 hc with h | h
      · left; split_ifs at h <;> simp at h; exact h
      · exact .inr (dec_isDigit _ c h)
    rcases this with rfl | h
    · decide
    · by_contra hb
      simp only [isBlank, Bool.or_eq_true, beq_iff_eq, Bool.not_eq_false] at hb
      rcases hb with ((((rfl | rfl) | rfl) | rfl) | rfl) | rfl <;> exact absurd h (by decide)
  read := by
    intro x rest
    have := number_digits (ds := dec ⌊x⌋.natAbs) (rest := rest) (dec_isDigit _) (dec_ne _)
      (decide (⌊x⌋ < 0))
    simp only [decide_eq_true_eq, natOf_dec] at this
    rw [fmtInt, this]
    congr 2
    split_ifs with h
    · have h2 : (⌊x⌋.natAbs : ℤ) = -⌊x⌋ := by omega
      have h3 : ((⌊x⌋.natAbs : ℕ) : ℚ) = ((-⌊x⌋ : ℤ) : ℚ) := by rw [← h2]; rfl
      rw [h3]; push_cast; ring
    · have h2 : (⌊x⌋.natAbs : ℤ) = ⌊x⌋ := by omega
      have h3 : ((⌊x⌋.natAbs : ℕ) : ℚ) = ((⌊x⌋ : ℤ) : ℚ) := by
        conv_rhs => rw [← h2]
        rfl
      exact h3

/-- An integer trace dumped and read back. -/
example : readTrace (dumpTrace fmtInt [[0, 5], [1, -12]]) =
    some [[some 0, some 5, none], [some 1, some (-12), none]] := by
  rw [C47_partial writes_fmtInt]
  have h : ⌊(-12 : ℚ)⌋ = -12 := by rw [Int.floor_eq_iff]; norm_num
  simp [h]

/-- Text that is not a number makes `read_trace` loop for ever; a last line without newline is
ignored. -/
theorem C47_text_false : readTrace "time x\n0 1\n".toList = none ∧
    readTrace "0 1\n1 2".toList = some [[some 0, some 1]] := by
  constructor <;> decide +kernel

/-! ## C52: random traces -/

theorem randTrace_getElem {rand : ℕ → ℕ} {top : ℕ} {m n : ℤ} {i : ℕ} (h : i < m.toNat) :
    (randTrace rand top m n)[i]? = some (((i : ℕ) : ℚ) * (1 / 10) ::
      (List.range n.toNat).map fun j => ((rand (i * n.toNat + j) : ℕ) : ℚ) / (top : ℚ)) := by
  simp [randTrace, h]

/-- `rand_trace_data(m, n)`: `m` rows of `n + 1` values, the first the time `i / 10`, the others
in [0, 1], for every behaviour of `rand()` within its range. -/
theorem C52_shape (rand : ℕ → ℕ) (top : ℕ) (ht : 0 < top) (hr : ∀ k, rand k ≤ top) (m n : ℤ) :
    (randTrace rand top m n).length = m.toNat ∧
    ∀ (i : ℕ) (row : List ℚ), (randTrace rand top m n)[i]? = some row →
      row.length = n.toNat + 1 ∧ row.head? = some ((i : ℚ) / 10) ∧
      ∀ v ∈ row.tail, 0 ≤ v ∧ v ≤ 1 := by
  refine ⟨by simp [randTrace], ?_⟩
  intro i row h
  have hi : i < m.toNat := by
    have := (List.getElem?_eq_some_iff.1 h).1
    simpa [randTrace] using this
  rw [randTrace_getElem hi] at h
  injection h with h
  subst h
  refine ⟨by simp, by simp [div_eq_mul_inv], ?_⟩
  simp only [List.tail_cons, List.mem_map, List.mem_range, forall_exists_index, and_imp]
  rintro v j _ rfl
  have h0 : (0 : ℚ) < top := by exact_mod_cast ht
  have h1 : ((rand (i * n.toNat + j) : ℕ) : ℚ) ≤ top := by exact_mod_cast hr _
  exact ⟨by positivity, (div_le_one h0).2 h1⟩

/-- Its times increase strictly. -/
theorem C52_times (rand : ℕ → ℕ) (top : ℕ) (m n : ℤ) :
    (randTrace rand top m n).Pairwise fun r r' =>
      ∃ t t', r.head? = some t ∧ r'.head? = some t' ∧ t < t' := by
  rw [randTrace, List.pairwise_map]
  refine (List.pairwise_lt_range (n := m.toNat)).imp ?_
  intro i j hij
  have : (i : ℚ) < j := by exact_mod_cast hij
  refine ⟨_, _, rfl, rfl, ?_⟩
  linarith

/-- Adding rows one after the other. -/
def addAll (d : Driver) : List (List ℚ) → M Driver
  | [] => .ok d
  | row :: rows => do
    let d' ← d.addSample row
    addAll d' rows

/-- A driver with `n` signals and no data takes all rows. -/
theorem C52_feed (rand : ℕ → ℕ) (top : ℕ) (m : ℤ) (d : Driver) (hd : d.data = []) :
    addAll d (randTrace rand top m d.smap.length) =
      .ok { d with data := randTrace rand top m d.smap.length } := by
  have key : ∀ (rows pre : List (List ℚ)), (∀ r ∈ pre ++ rows, r.length = d.smap.length + 1) →
      ((pre ++ rows).Pairwise fun r r' =>
        ∃ t t', r.head? = some t ∧ r'.head? = some t' ∧ t < t') →
      addAll { d with data := pre } rows = .ok { d with data := pre ++ rows } := by
    intro rows
    induction rows with
    | nil => intro pre _ _; simp [addAll]
    | cons row rows ih =>
      intro pre hl hp
      have hacc : Accepts d.smap.length pre row := by
        refine ⟨hl row (by simp), ?_⟩
        intro last hlast t u ht hu
        have hm : last ∈ pre := List.mem_of_getLast? hlast
        obtain ⟨t1, t2, h1, h2, h3⟩ := (List.pairwise_append.1 hp).2.2 last hm row (by simp)
        rw [ht] at h1
        rw [hu] at h2
        injection h1 with h1
        injection h2 with h2
        rw [h1, h2]; exact h3
      have hne : ∀ r ∈ pre, r ≠ [] := by
        intro r hr he
        have := hl r (by simp [hr])
        rw [he] at this; simp at this
      have hs : Driver.addSample { d with data := pre } row = .ok { d with data := pre ++ [row] } := by
        have := pushRow_ok hne hacc
        unfold Driver.addSample
        simp only [this]
        rfl
      rw [addAll, hs]
      show addAll { d with data := pre ++ [row] } rows = _
      have := ih (pre ++ [row]) (by simpa using hl) (by simpa using hp)
      simpa using this
  have := key (randTrace rand top m d.smap.length) [] ?_ (by simpa using C52_times rand top m _)
  · have e : { d with data := [] } = d := by rw [← hd]
    rw [e] at this
    simpa using this
  · intro r hr
    simp only [List.nil_append, randTrace, List.mem_map] at hr
    obtain ⟨i, _, rfl⟩ := hr
    simp

example : randTrace (fun k => k % 8) 7 3 2 = [[0, 0, 1 / 7], [1 / 10, 2 / 7, 3 / 7],
    [1 / 5, 4 / 7, 5 / 7]] ∧ (∀ k, k % 8 ≤ 7) ∧
    randTrace (fun k => k % 8) 7 (-1) 2 = [] := by
  refine ⟨by decide +kernel, fun k => by omega, by decide +kernel⟩

end Props
end STLRom
