import Verif.Spec.Stream
import Verif.Proofs.PrintNum

/-!
# Formats that write the same
-/

namespace STLRom
namespace Props
open Print Spec

theorem digits_zeros : ∀ (j k n : ℕ), digits (k + j) (n * 10 ^ j) = digits k n ++ List.replicate j '0'
  | 0, k, n => by simp
  | j + 1, k, n => by
    have h1 : n * 10 ^ (j + 1) / 10 = n * 10 ^ j := by
      rw [pow_succ, ← mul_assoc, Nat.mul_div_cancel _ (by norm_num)]
    have h2 : n * 10 ^ (j + 1) % 10 = 0 := by
      rw [pow_succ, ← mul_assoc, Nat.mul_mod_left]
    rw [← Nat.add_assoc, digits, h1, digits_zeros j k n, List.replicate_succ', List.append_assoc]
    congr 2
    rw [digit, h2]

theorem fraction_zeros (ds : List Char) (j : ℕ) : fraction (ds ++ List.replicate j '0') = fraction ds := by
  unfold fraction
  rw [List.reverse_append, List.reverse_replicate]
  have : ∀ j : ℕ, (List.replicate j '0' ++ ds.reverse).dropWhile (· == '0') = ds.reverse.dropWhile (· == '0') := by
    intro j
    induction j with
    | zero => rfl
    | succ j ih => rw [List.replicate_succ, List.cons_append, List.dropWhile_cons_of_pos (by decide), ih]
  rw [this]

theorem leading_short {q : ℚ} (h : Short q) (hq : q ≠ 0) : ∃ (N : ℕ) (x : ℤ), -4 ≤ x ∧ x < 6 ∧
    ∀ p, 6 ≤ p → leading p |q| = (N * 10 ^ (p - 6), x) := by
  obtain ⟨h4, n, k, hn, hnk⟩ := h.resolve_left hq
  set a := |q| with ha
  have ha0 : 0 < a := abs_pos.2 hq
  set x := Int.log 10 a with hx
  have hx4 : -4 ≤ x := by
    refine (Int.zpow_le_iff_le_log (b := 10) (by norm_num) ha0).1 ?_
    refine le_trans (le_of_eq ?_) h4
    norm_num
  have hlo : (10 : ℚ) ^ x ≤ a := by exact_mod_cast Int.zpow_log_le_self (b := 10) (by norm_num) ha0
  have hup : a < (10 : ℚ) ^ (x + 1) := by exact_mod_cast Int.lt_zpow_succ_log_self (b := 10) (by norm_num) a
  have hxk : x + k < 6 := by
    have h1 : (10 : ℚ) ^ (x + k) < 10 ^ (6 : ℤ) := by
      rw [zpow_add₀ (by norm_num), zpow_natCast]
      calc (10 : ℚ) ^ x * 10 ^ k ≤ a * 10 ^ k := by gcongr
        _ = n := by rw [hnk]; field_simp
        _ < 10 ^ (6 : ℤ) := by exact_mod_cast hn
    exact (zpow_lt_zpow_iff_right₀ (by norm_num)).1 h1
  obtain ⟨j, hj⟩ : ∃ j : ℕ, (j : ℤ) = 5 - x - k := ⟨(5 - x - k).toNat, by omega⟩
  set N := n * 10 ^ j with hN
  have hNa : a * 10 ^ (5 - x) = (N : ℚ) := by
    rw [hnk, show (5 - x : ℤ) = j + k by omega, zpow_add₀ (by norm_num), zpow_natCast, zpow_natCast, hN]
    push_cast
    field_simp
  have hN6 : N < 10 ^ 6 := by
    have : (N : ℚ) < 10 ^ 6 := by
      rw [← hNa]
      calc a * 10 ^ (5 - x) < 10 ^ (x + 1) * 10 ^ (5 - x) :=
          mul_lt_mul_of_pos_right hup (zpow_pos (by norm_num) _)
        _ = 10 ^ 6 := by rw [← zpow_add₀ (by norm_num), show x + 1 + (5 - x) = 6 by ring]; norm_num
    exact_mod_cast this
  refine ⟨N, x, hx4, by omega, fun p hp => ?_⟩
  have hNp : a * 10 ^ ((p : ℤ) - 1 - x) = ((N * 10 ^ (p - 6) : ℕ) : ℚ) := by
    rw [show ((p : ℤ) - 1 - x) = (5 - x) + ((p - 6 : ℕ) : ℤ) by omega, zpow_add₀ (by norm_num), ← mul_assoc, hNa,
      zpow_natCast]
    push_cast
    rfl
  unfold leading
  simp only [← hx, hNp, nearest_nat]
  rw [if_neg]
  have : 10 ^ p = 10 ^ 6 * 10 ^ (p - 6) := by rw [← pow_add]; congr 1; omega
  rw [this]
  exact (Nat.mul_lt_mul_of_pos_right hN6 (by positivity)).ne

/-- Numbers of at most six digits are written the same with any precision from six on. -/
theorem general_short {p : ℕ} (hp : 6 ≤ p) {q : ℚ} (h : Short q) : general p q = general 6 q := by
  by_cases hq : q = 0
  · simp [general, hq]
  obtain ⟨N, x, h1, h2, h3⟩ := leading_short h hq
  unfold general
  rw [if_neg hq, if_neg hq, h3 p hp, h3 6 le_rfl]
  simp only
  have c1 : -4 ≤ x ∧ x < (p : ℤ) := ⟨h1, by omega⟩
  have c2 : -4 ≤ x ∧ x < ((6 : ℕ) : ℤ) := ⟨h1, by omega⟩
  simp only [if_pos c1, if_pos c2]
  obtain ⟨k, hk⟩ : ∃ k : ℕ, (((6 : ℕ) : ℤ) - 1 - x).toNat = k := ⟨_, rfl⟩
  have hk' : ((p : ℤ) - 1 - x).toNat = k + (p - 6) := by omega
  rw [hk, hk', digits_zeros, fraction_zeros, pow_add, Nat.mul_div_mul_right _ _ (by positivity)]
  simp

theorem general_six (q : ℚ) : general 6 q = number q := rfl

theorem fmt_init (q : ℚ) : Fmt.init.num q = number q := rfl

theorem printOn_init (T : Tr) : T.printOn Fmt.init = T.print := by
  induction T with
  | atom _ k _ _ i1 i2 => cases k <;> simp only [Tr.printOn, Tr.print, i1, i2]
  | _ => simp_all [Tr.printOn, Tr.print, fmt_init]

/-! ## Two formats that agree on the numbers written -/

theorem printOn_congr {f f' : Fmt} (T : Tr) (h : ∀ q ∈ constants T, f.num q = f'.num q) : T.printOn f = T.printOn f' := by
  induction T with
  | sig => rfl
  | const _ p v _ =>
    simp only [Tr.printOn]
    split
    · rename_i hp
      exact h v (by simp [constants, hp])
    · rfl
  | abs _ c ih | not _ c ih | ev _ _ c ih | alw _ _ c ih =>
    simp only [Tr.printOn, ih h]
  | plus _ l r i1 i2 | minus _ l r i1 i2 | mult _ l r i1 i2 | atom _ _ l r i1 i2 | and _ l r i1 i2 | or _ l r i1 i2
  | implies _ l r i1 i2 | untl _ l _ r i1 i2 =>
    simp only [constants, List.mem_append] at h
    simp only [Tr.printOn, i1 fun q hq => h q (.inl hq), i2 fun q hq => h q (.inr hq)]

theorem padded_congr {f f' : Fmt} {q : ℚ} (h : f.num q = f'.num q) (n : ℕ) : f.padded n q = f'.padded n q := by
  unfold Fmt.padded
  rw [h]

theorem sample_fmt {f f' : Fmt} (h : f.fixed = f'.fixed) (x : Sample) : Stream.sample f x = Stream.sample f' x := by
  unfold Stream.sample
  rw [h]

theorem samples_fmt {f f' : Fmt} (h : f.fixed = f'.fixed) : ∀ l, Stream.samples f l = Stream.samples f' l
  | [] => rfl
  | x :: l => by
    simp only [Stream.samples]
    rw [sample_fmt h, samples_fmt (f := { f with prec := 8 }) (f' := { f' with prec := 8 }) h]

theorem listed_congr {α : Type} {s s' : String × α → List Char} : ∀ (l : List (String × α)), (∀ e ∈ l, s e = s' e) →
    Stream.listed s l = Stream.listed s' l
  | [], _ => rfl
  | [e], h => h e (by simp)
  | e :: e' :: l, h => by
    simp only [Stream.listed]
    rw [h e (by simp), listed_congr (e' :: l) fun x hx => h x (List.mem_cons_of_mem _ hx)]

theorem flatMap_eq {α : Type} {s s' : α → List Char} : ∀ (l : List α), (∀ e ∈ l, s e = s' e) →
    l.flatMap s = l.flatMap s'
  | [], _ => rfl
  | e :: l, h => by
    rw [List.flatMap_cons, List.flatMap_cons, h e (by simp), flatMap_eq l fun x hx => h x (List.mem_cons_of_mem _ hx)]

theorem mem_byName {α : Type} {m : Assoc α} {e : String × α} : e ∈ Stream.byName m ↔ e ∈ m := by
  unfold Stream.byName
  exact (List.perm_insertionSort _ _).mem_iff

theorem text_sequence (f : Fmt) (l : List (ℚ × ℚ)) : Stream.text f (.sequence l) = if l = [] then "EMPTY\n".toList
    else l.flatMap fun p => f.num p.1 ++ ';' :: (f.num p.2 ++ ['\n']) := rfl

theorem text_signal (f : Fmt) (x : Signal) : Stream.text f (.signal x) = if x.samples = [] then "EMPTY\n".toList
    else "def = [".toList ++ (f.num x.beginTime ++ (", ".toList ++ (f.num x.endTime ++
      (")\n".toList ++ Stream.samples f x.samples)))) := rfl

theorem text_displayFormula (f : Fmt) (m : Monitor) : Stream.text f (.displayFormula m) = match m.formula with
    | some T => T.printOn f ++ ['\n']
    | none => "No formula set.\n".toList := rfl

theorem text_monitor (f : Fmt) (m : Monitor) : Stream.text f (.monitor m) =
    "Signal Names: ".toList ++ (Stream.listed (fun e => e.1.toList) (Stream.byName m.smap) ++ ('\n' ::
      ("Parameters: ".toList ++ (Stream.listed (fun e => e.1.toList ++ (": ".toList ++ f.num e.2))
        (Stream.byName m.params) ++ ('\n' :: ("Formula: ".toList ++ ((match m.formula with
          | some T => T.printOn f
          | none => "No formula set.".toList) ++ ['\n']))))))) := rfl

theorem text_trace (f : Fmt) (d : Driver) : Stream.text f (.trace d) =
    d.data.flatMap fun row => row.flatMap (fun x => f.num x ++ [' ']) ++ ['\n'] := rfl

theorem text_driver (f : Fmt) (d : Driver) : Stream.text f (.driver d) =
    "\nAssigned formulas:\n-------------------\n".toList ++
      ((Stream.byName d.formulas).flatMap (fun e => e.1.toList ++ (":\n".toList ++ (e.2.printOn f ++ ['\n']))) ++
      ("\nDefault Parameters:\n---------------------\n".toList ++
      ((Stream.byName d.params).flatMap (fun e => e.1.toList ++ ('=' :: (f.num e.2 ++ ['\n']))) ++ ['\n']))) := rfl

/-- The text written depends on the format by way of the numbers of the item, and on `std::fixed` for samples. -/
theorem text_congr {f f' : Fmt} (hf : f.fixed = f'.fixed) (i : OutItem) (h : ∀ q ∈ numbersOut i, f.num q = f'.num q) :
    Stream.text f i = Stream.text f' i := by
  cases i with
  | point t v =>
    have h1 : t ∈ numbersOut (.point t v) := List.mem_cons_self
    have h2 : v ∈ numbersOut (.point t v) := List.mem_cons_of_mem _ List.mem_cons_self
    show f.num t ++ ';' :: f.num v = f'.num t ++ ';' :: f'.num v
    rw [h t h1, h v h2]
  | sample x => exact sample_fmt hf x
  | sequence l =>
    rw [text_sequence, text_sequence]
    split
    · rfl
    · refine flatMap_eq l fun p hp => ?_
      rw [h p.1 (List.mem_flatMap.2 ⟨p, hp, by simp⟩), h p.2 (List.mem_flatMap.2 ⟨p, hp, by simp⟩)]
  | signal x =>
    rw [text_signal, text_signal]
    rw [h x.beginTime (by simp [numbersOut]), h x.endTime (by simp [numbersOut]), samples_fmt hf]
  | printPoint t v => rfl
  | printSample x => rfl
  | formula T => exact printOn_congr T h
  | displayFormula m =>
    rw [text_displayFormula, text_displayFormula]
    cases hm : m.formula with
    | none => rfl
    | some T =>
      simp only
      rw [printOn_congr T fun q hq => h q (by simpa [numbersOut, hm] using hq)]
  | displaySignals m => rfl
  | monitor m =>
    rw [text_monitor, text_monitor]
    have h1 : Stream.listed (fun e => e.1.toList ++ (": ".toList ++ f.num e.2)) (Stream.byName m.params) =
        Stream.listed (fun e => e.1.toList ++ (": ".toList ++ f'.num e.2)) (Stream.byName m.params) := by
      refine listed_congr _ fun e he => ?_
      rw [h e.2 (by
        simp only [numbersOut, List.mem_append, List.mem_map]
        exact .inl ⟨e, mem_byName.1 he, rfl⟩)]
    rw [h1]
    cases hm : m.formula with
    | none => rfl
    | some T =>
      simp only
      rw [printOn_congr T fun q hq => h q (by
        simp only [numbersOut, List.mem_append]
        exact .inr (by simpa [hm] using hq))]
  | trace d =>
    rw [text_trace, text_trace]
    refine flatMap_eq _ fun r hr => ?_
    congr 1
    refine flatMap_eq _ fun q hq => ?_
    rw [h q (List.mem_flatten.2 ⟨r, hr, hq⟩)]
  | driver d =>
    rw [text_driver, text_driver]
    have h1 : (Stream.byName d.formulas).flatMap (fun e => e.1.toList ++ (":\n".toList ++ (e.2.printOn f ++ ['\n']))) =
        (Stream.byName d.formulas).flatMap (fun e => e.1.toList ++ (":\n".toList ++ (e.2.printOn f' ++ ['\n']))) := by
      refine flatMap_eq _ fun e he => ?_
      rw [printOn_congr e.2 fun q hq => h q (by
        simp only [numbersOut, List.mem_append]
        exact .inr (List.mem_flatMap.2 ⟨e, mem_byName.1 he, hq⟩))]
    have h2 : (Stream.byName d.params).flatMap (fun e => e.1.toList ++ ('=' :: (f.num e.2 ++ ['\n']))) =
        (Stream.byName d.params).flatMap (fun e => e.1.toList ++ ('=' :: (f'.num e.2 ++ ['\n']))) := by
      refine flatMap_eq _ fun e he => ?_
      rw [h e.2 (by
        simp only [numbersOut, List.mem_append, List.mem_map]
        exact .inl ⟨e, mem_byName.1 he, rfl⟩)]
    rw [h1, h2]

/-- Formats that write numbers of at most six digits as a new stream does. -/
def Usual (f : Fmt) : Prop := f.fixed = false ∧ 6 ≤ f.prec

theorem usual_num {f : Fmt} (h : Usual f) {q : ℚ} (hq : Short q) : f.num q = Fmt.init.num q := by
  unfold Fmt.num
  rw [h.1]
  exact general_short h.2 hq

theorem usual_after {f : Fmt} (h : Usual f) {i : OutItem} (hi : ¬ Fixes i) : Usual (Stream.after f i) := by
  cases i with
  | sample x => exact ⟨h.1, by norm_num [Stream.after]⟩
  | signal x =>
    show Usual (if x.samples = [] then f else { f with prec := 8 })
    by_cases hx : x.samples = []
    · rw [if_pos hx]
      exact h
    · rw [if_neg hx]
      exact ⟨h.1, by norm_num⟩
  | printPoint t v => exact absurd trivial hi
  | printSample x => exact absurd trivial hi
  | _ => exact h

theorem after_quiet {f : Fmt} {i : OutItem} (h1 : ¬ Fixes i) (h2 : ¬ Sampled i) : Stream.after f i = f := by
  cases i with
  | sample x => exact absurd trivial h2
  | signal x => exact absurd trivial h2
  | printPoint t v => exact absurd trivial h1
  | printSample x => exact absurd trivial h1
  | _ => rfl

theorem write_usual : ∀ (l : List OutItem) {f : Fmt}, Usual f → (∀ i ∈ l, ¬ Fixes i ∧ ∀ q ∈ numbersOut i, Short q) →
    Stream.write f l = l.flatMap (Stream.text Fmt.init)
  | [], _, _, _ => rfl
  | i :: l, f, hf, h => by
    obtain ⟨h1, h2⟩ := h i (by simp)
    rw [Stream.write, List.flatMap_cons, text_congr hf.1 i fun q hq => usual_num hf (h2 q hq),
      write_usual l (usual_after hf h1) fun j hj => h j (List.mem_cons_of_mem _ hj)]

theorem write_quiet : ∀ (l : List OutItem) (f : Fmt), (∀ i ∈ l, ¬ Fixes i ∧ ¬ Sampled i) →
    Stream.write f l = l.flatMap (Stream.text f)
  | [], _, _ => rfl
  | i :: l, f, h => by
    obtain ⟨h1, h2⟩ := h i (by simp)
    rw [Stream.write, List.flatMap_cons, after_quiet h1 h2, write_quiet l f fun j hj => h j (List.mem_cons_of_mem _ hj)]

theorem listed_intercalate {α : Type} (s : String × α → List Char) : ∀ l : List (String × α),
    Stream.listed s l = List.intercalate ", ".toList (l.map s)
  | [] => rfl
  | [e] => by simp [Stream.listed, List.intercalate]
  | e :: e' :: l => by
    rw [Stream.listed, listed_intercalate s (e' :: l)]
    · simp [List.intercalate]
    · simp

end Props
end STLRom
