import Verif.Spec.TraceFile
import Verif.Props.ReadPoint
import Verif.Props.Tools

/-!
# Property C91: reading trace files
-/

namespace STLRom
namespace Props
open Spec Text

theorem lineBlank_blank {c : Char} (h : LineBlank c) : isBlank c = true := by
  rcases h with rfl | rfl | rfl | rfl | rfl <;> decide

theorem lineBlank_ne {c : Char} (h : LineBlank c) : c ≠ '\n' := by
  rcases h with rfl | rfl | rfl | rfl | rfl <;> decide

/-- `read_trace` gives the numbers of the lines of a file, whether or not the last line ends with a line break. -/
def C91_full : Prop := ∀ L : List Line, (∀ l ∈ L, l.Ok) →
  readTrace (fileText L) = some (L.map fun l => l.values.map some) ∧
  ∀ l : Line, l.Ok → readTrace (fileText L ++ l.text) = some ((L ++ [l]).map fun l => l.values.map some)

theorem readRowAux_line (trail : List Char) (ht : ∀ c ∈ trail, isBlank c = true) :
    ∀ (nums : List (List Char × Sci)) (n : ℕ), nums ≠ [] → (∀ q ∈ nums, q.2.Ok) →
      (∀ q ∈ nums, ∀ c ∈ q.1, isBlank c = true) → (∀ q ∈ nums.tail, q.1 ≠ []) → nums.length < n →
      readRowAux n (nums.flatMap (fun q => q.1 ++ q.2.word) ++ trail) =
        some (nums.map (fun q => some q.2.value) ++ if trail = [] then [] else [none])
  | [], _, h, _, _, _, _ => absurd rfl h
  | q :: nums, 0, _, _, _, _, hn => absurd hn (by omega)
  | q :: nums, n + 1, _, hok, hb, hs, hn => by
    set r := nums.flatMap (fun q => q.1 ++ q.2.word) ++ trail with hr
    have e : (q :: nums).flatMap (fun q => q.1 ++ q.2.word) ++ trail = q.1 ++ (q.2.word ++ r) := by
      simp [hr]
    have hbr : BlankHead r := by
      intro c v hc
      cases nums with
      | nil => exact ht c (by rw [hr] at hc; simp at hc; simp [hc])
      | cons q' nums =>
        cases hq : q'.1 with
        | nil => exact absurd hq (hs q' (by simp))
        | cons b u =>
          rw [hr] at hc
          simp only [List.flatMap_cons, hq, List.cons_append] at hc
          injection hc with hc _
          exact hb q' (by simp) c (by rw [hq, ← hc]; simp)
    obtain ⟨h1, h2⟩ := skip_sci q.2 (hok q (by simp)) (hb q (by simp)) r
    have h3 := number_sci q.2 (hok q (by simp)) hbr
    rw [e, readRowAux, h1]
    cases hw : q.2.word ++ r with
    | nil => exact absurd hw h2
    | cons c s =>
      rw [hw] at h3
      simp only [h3]
      cases nums with
      | nil =>
        have hr' : r = trail := by simp [hr]
        rw [hr']
        cases trail with
        | nil => simp
        | cons b u =>
          obtain ⟨m, rfl⟩ : ∃ m, n = m + 1 := ⟨n - 1, by simp at hn; omega⟩
          have : (b :: u).dropWhile isBlank = [] := by
            have := List.dropWhile_append_of_pos ht (l₂ := [])
            rwa [List.append_nil] at this
          simp only [readRowAux, this]
          simp
      | cons q' nums =>
        have ih := readRowAux_line trail ht (q' :: nums) n (by simp) (fun x hx => hok x (by simp [hx]))
          (fun x hx => hb x (by simp [hx])) (fun x hx => hs x (by simp at hx ⊢; simp [hx])) (by simp at hn ⊢; omega)
        rw [← hr] at ih
        cases hr2 : r with
        | nil =>
          have := hs q' (by simp)
          rw [hr] at hr2
          simp [this] at hr2
        | cons b u =>
          rw [hr2] at ih
          simp only [ih]
          simp

/-- One line: its numbers, and one more value, never assigned, when there is white space at the end. -/
theorem readRow_line {l : Line} (h : l.Ok) :
    readRow l.text = some (l.values.map some ++ if l.trail = [] then [] else [none]) := by
  have hlen : ∀ nums : List (List Char × Sci), (∀ q ∈ nums, q.2.Ok) →
      nums.length ≤ (nums.flatMap (fun q => q.1 ++ q.2.word)).length := by
    intro nums
    induction nums with
    | nil => simp
    | cons q nums ih =>
      intro hq
      have h1 := ih fun x hx => hq x (by simp [hx])
      have h2 : q.2.word ≠ [] := by
        have := (skip_sci q.2 (hq q (by simp)) (p := []) (by simp) []).2
        simpa using this
      have h3 := List.length_pos_iff.2 h2
      simp only [List.flatMap_cons, List.length_append, List.length_cons]
      omega
  have := readRowAux_line l.trail (fun c hc => lineBlank_blank (h.trail c hc)) l.nums (l.text.length + 1) h.ne h.ok
    (fun q hq c hc => lineBlank_blank (h.blank q hq c hc)) h.sep (by
      have := hlen l.nums h.ok
      simp only [Line.text, List.length_append]
      omega)
  rw [readRow, Line.values, List.map_map]
  exact this

theorem sci_newline (x : Sci) : '\n' ∉ x.word := by
  have hd : ∀ ds : List (Fin 10), '\n' ∉ Lit.chars ds := fun ds hn => absurd (chars_digit ds _ hn) (by decide)
  have hs : '\n' ∉ Sci.signChars x.sign := by
    cases x.sign with
    | none => simp [Sci.signChars]
    | some b => cases b <;> simp [Sci.signChars]
  unfold Sci.word Lit.word
  simp only [List.mem_append, not_or]
  refine ⟨⟨⟨?_, hd _⟩, ?_⟩, ?_⟩
  · split_ifs <;> simp
  · split_ifs
    · simp
    · simpa using hd _
  · split_ifs
    · simp
    · simpa using ⟨hs, hd _⟩
    · simpa using ⟨hs, hd _⟩

theorem line_newline {l : Line} (h : l.Ok) : '\n' ∉ l.text := by
  unfold Line.text
  simp only [List.mem_append, List.mem_flatMap, not_or, not_exists, not_and]
  exact ⟨fun q hq => ⟨fun hn => lineBlank_ne (h.blank q hq _ hn) rfl, sci_newline q.2⟩, fun hn => lineBlank_ne (h.trail _ hn) rfl⟩

theorem linesAux_rest : ∀ (u acc : List Char), '\n' ∉ u → linesAux acc u = []
  | [], _, _ => rfl
  | c :: u, acc, h => by
    rw [linesAux, if_neg fun hc => h (by simp [hc])]
    exact linesAux_rest u _ fun hu => h (by simp [hu])

theorem lines_file (rest : List Char) (hr : '\n' ∉ rest) : ∀ L : List Line, (∀ l ∈ L, l.Ok) →
    lines (fileText L ++ rest) = L.map Line.text
  | [], _ => linesAux_rest rest [] hr
  | l :: L, h => by
    have ih := lines_file rest hr L fun x hx => h x (by simp [hx])
    unfold lines fileText at *
    rw [List.flatMap_cons, List.append_assoc, List.append_assoc, List.singleton_append,
      linesAux_append _ _ _ (line_newline (h l (by simp))), ih]
    simp

/-- What is read from every file of lines of numbers, with something without line break at the end: the numbers of the
lines; one more value, never assigned, in the lines with white space at the end; nothing of what comes after the last line
break. -/
theorem C91_read (L : List Line) (h : ∀ l ∈ L, l.Ok) (rest : List Char) (hr : '\n' ∉ rest) :
    readTrace (fileText L ++ rest) =
      some (L.map fun l => l.values.map some ++ if l.trail = [] then [] else [none]) := by
  rw [readTrace, lines_file rest hr L h]
  induction L with
  | nil => rfl
  | cons l L ih =>
    rw [List.map_cons, List.mapM_cons, readRow_line (h l (by simp)), ih fun x hx => h x (by simp [hx])]
    rfl

/-- **C91**, when no line has white space at its end and the last one ends with a line break. -/
theorem C91_partial (L : List Line) (h : ∀ l ∈ L, l.Ok) (ht : ∀ l ∈ L, l.trail = []) :
    readTrace (fileText L) = some (L.map fun l => l.values.map some) := by
  have := C91_read L h [] (by simp)
  rw [List.append_nil] at this
  rw [this]
  congr 1
  refine List.map_congr_left fun l hl => ?_
  rw [if_pos (ht l hl), List.append_nil]

/-- In a file with the line ends of Windows every row has one more value, which was never assigned. -/
theorem C91_windows_false (L : List Line) (h : ∀ l ∈ L, l.Ok) (ht : ∀ l ∈ L, l.trail = ['\r']) :
    readTrace (fileText L) = some (L.map fun l => l.values.map some ++ [none]) := by
  have := C91_read L h [] (by simp)
  rw [List.append_nil] at this
  rw [this]
  congr 1
  refine List.map_congr_left fun l hl => ?_
  rw [ht l hl, if_neg (by simp)]

/-- A last line without line break is not read. -/
theorem C91_last_false (L : List Line) (h : ∀ l ∈ L, l.Ok) (ht : ∀ l ∈ L, l.trail = []) (l : Line) (hl : l.Ok) :
    readTrace (fileText L ++ l.text) = some (L.map fun l => l.values.map some) := by
  rw [C91_read L h _ (line_newline hl)]
  congr 1
  refine List.map_congr_left fun l hl => ?_
  rw [if_pos (ht l hl), List.append_nil]

/-- A line that begins like no number, anywhere in the file: the call never returns. -/
theorem C91_header_false (L : List Line) (h : ∀ l ∈ L, l.Ok) (c : Char) (u after : List Char)
    (hc : c.isDigit = false ∧ c ≠ '.' ∧ c ≠ '-' ∧ c ≠ '+' ∧ isBlank c = false) (hu : '\n' ∉ u) :
    readTrace (fileText L ++ (c :: u ++ '\n' :: after)) = none := by
  obtain ⟨c1, c2, c3, c4, c5⟩ := hc
  have hrow : readRow (c :: u) = none := by
    rw [readRow, readRowAux, List.dropWhile_cons_of_neg (by simp [c5])]
    simp only [number_none c u c1 c2 c3 c4]
  have hl : lines (c :: u ++ '\n' :: after) = (c :: u) :: lines after := by
    have hn : '\n' ∉ c :: u := by
      simp only [List.mem_cons, not_or]
      exact ⟨fun e => by rw [← e] at c5; exact absurd c5 (by decide), hu⟩
    unfold lines
    rw [linesAux_append _ _ _ hn]
    rfl
  have hL : ∀ L : List Line, (∀ l ∈ L, l.Ok) → ∀ r, lines (fileText L ++ r) = L.map Line.text ++ lines r := by
    intro L
    induction L with
    | nil => intro _ r; rfl
    | cons l L ih =>
      intro h r
      have ih := ih (fun x hx => h x (by simp [hx])) r
      unfold lines fileText at *
      rw [List.flatMap_cons, List.append_assoc, List.append_assoc, List.singleton_append,
        linesAux_append _ _ _ (line_newline (h l (by simp))), ih]
      simp
  rw [readTrace, hL L h, hl]
  induction L with
  | nil => rw [List.map_nil, List.nil_append, List.mapM_cons, hrow]; rfl
  | cons l L ih =>
    rw [List.map_cons, List.cons_append, List.mapM_cons, readRow_line (h l (by simp)), ih fun x hx => h x (by simp [hx])]
    rfl

/-- `-1.5	2E+1`. -/
def lineA : Line := ⟨[([], litA), (['\t'], litB)], []⟩

/-- ` 2E+1  -1.5`, and the line end of Windows. -/
def lineB : Line := ⟨[([' '], litB), ([' ', ' '], litA)], ['\r']⟩

theorem lineA_ok : lineA.Ok :=
  ⟨by simp [lineA], by simp [lineA, Sci.Ok, litA, litB], by simp [lineA, LineBlank], by simp [lineA], by simp [lineA]⟩

theorem lineB_ok : lineB.Ok :=
  ⟨by simp [lineB], by simp [lineB, Sci.Ok, litA, litB], by simp [lineB, LineBlank], by simp [lineB],
    by simp [lineB, LineBlank]⟩

example : readTrace "-1.5\t2E+1\n-1.5\t2E+1\n".toList = some [[some (-3 / 2), some 20], [some (-3 / 2), some 20]] :=
  (C91_partial [lineA, lineA] (by simp [lineA_ok]) (by simp [lineA])).trans (by decide +kernel)

example : readTrace " 2E+1  -1.5\r\n".toList = some [[some 20, some (-3 / 2), none]] :=
  (C91_windows_false [lineB] (by simp [lineB_ok]) (by simp [lineB])).trans (by decide +kernel)

example : readTrace "-1.5\t2E+1\n 2E+1  -1.5\r".toList = some [[some (-3 / 2), some 20]] :=
  (C91_last_false [lineA] (by simp [lineA_ok]) (by simp [lineA]) lineB lineB_ok).trans (by decide +kernel)

example : readTrace "-1.5\t2E+1\ntime x\n0 1\n".toList = none := by
  rw [show "-1.5\t2E+1\ntime x\n0 1\n".toList = fileText [lineA] ++ ('t' :: "ime x".toList ++ '\n' :: "0 1\n".toList) by
    decide +kernel]
  exact C91_header_false [lineA] (by simp [lineA_ok]) 't' _ _ (by decide) (by decide)

theorem C91_false : ¬ C91_full := by
  intro h
  have h1 := (h [] (by simp)).2 lineA lineA_ok
  rw [C91_last_false [] (by simp) (by simp) lineA lineA_ok] at h1
  simp at h1

end Props
end STLRom
