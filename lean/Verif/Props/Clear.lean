import Verif.Props.ParseText

/-!
# Property C69: using a driver again after `clear()`
-/

namespace STLRom
namespace Props
open Scan Text Parse Spec

/-- A new driver with the settings of `d`. -/
def renewed (d : Driver) : Driver := { Driver.init with sem := d.sem, ip := d.ip }

/-- C69 in full: after `clear()`, a text has the effect it has on a new driver. -/
def C69_full : Prop :=
  ∀ (d : Driver) (names : List String), Declared d names → ∀ (text : List Char) (b : Bool) (d' : Driver),
    Parses d.clear text b d' ↔ Parses (renewed d) text b d'

theorem prefix_step {a n l : List String} {s : String} (h1 : a <+: n) (h2 : n <+: l)
    (h3 : a ++ [s] <+: l) (hne : a ≠ n) : a ++ [s] <+: n := by
  refine List.prefix_of_prefix_length_le h3 h2 ?_
  have := h1.length_le
  rcases this.lt_or_eq with h | h
  · simp only [List.length_append, List.length_singleton]; omega
  · exact absurd (h1.eq_of_length h) hne

theorem declare_prefix (a : List String) (s : String) : a <+: declare a s := by
  unfold declare
  split_ifs
  · exact List.prefix_rfl
  · exact List.prefix_append _ _

theorem declares_prefix : ∀ (l a : List String), a <+: l.foldl declare a
  | [], _ => List.prefix_rfl
  | s :: l, a => (declare_prefix a s).trans (declares_prefix l (declare a s))

/-- Declaring on top of names that come first anyway. -/
theorem declares_again : ∀ (l a n : List String), a <+: n → n <+: l.foldl declare a →
    l.foldl declare n = l.foldl declare a
  | [], a, n, h1, h2 => by
    have := h1.length_le
    have := h2.length_le
    exact (h1.eq_of_length (by simp only [List.foldl_nil] at *; omega)).symm
  | s :: l, a, n, h1, h2 => by
    simp only [List.foldl_cons] at h2 ⊢
    by_cases hs : s ∈ a
    · rw [show declare a s = a from if_pos hs] at h2 ⊢
      rw [show declare n s = n from if_pos (h1.subset hs)]
      exact declares_again l a n h1 h2
    · have ha : declare a s = a ++ [s] := if_neg hs
      by_cases hn : a = n
      · rw [← hn]
      · have h3 : a ++ [s] <+: l.foldl declare (declare a s) := by
          rw [ha]; exact declares_prefix l _
        have h4 := prefix_step h1 h2 h3 hn
        rw [show declare n s = n from if_pos (h4.subset (by simp))]
        rw [ha] at h2 ⊢
        exact declares_again l (a ++ [s]) n h4 h2

/-- C69, what holds: a text that declares signals and goes on with statements has the same effect
on the cleared driver as on a new one, if the driver holds no data and the signals it knows are
the first ones the text declares, in this order.  Missing: other signals or data, where it is
false (`C69_false`, `C69_data_false`). -/
theorem C69_partial {d : Driver} {names : List String} {u : String} {us : List String}
    {ss : List Stmt} {ws : List (List Char)} {text : List Char} (hn : Declared d names)
    (hdata : d.data = []) (hpre : names <+: (u :: us).foldl declare [])
    (hd : ∀ s ∈ u :: us, Declarable Driver.init s)
    (hok : ProgOk { renewed d with smap := numbered ((u :: us).foldl declare []) }
      { renewed d with smap := numbered ((u :: us).foldl declare []) } ss) (hr : ReadsProg ss ws)
    (ht : Spelled (signalWords u us ++ ws) text) :
    ∃ d', Parses d.clear text true d' ∧ Parses (renewed d) text true d' := by
  have e : { d.clear with smap := numbered ((u :: us).foldl declare names) } =
      { renewed d with smap := numbered ((u :: us).foldl declare []) } := by
    rw [declares_again _ [] names List.nil_prefix hpre]
    unfold Driver.clear renewed Driver.init
    rw [hdata]
  refine ⟨_, C61_declared (d := d.clear) (names := names) hn ?_ (by rw [e]; exact hok) hr ht, ?_⟩
  · exact fun s hs => ⟨(hd s hs).ident, (hd s hs).word, rfl, rfl, fun _ => rfl⟩
  · rw [e]
    exact C61_declared (d := renewed d) (names := []) ⟨rfl, List.nodup_nil⟩
      (fun s hs => ⟨(hd s hs).ident, (hd s hs).word, rfl, rfl, fun _ => rfl⟩) hok hr ht

/-- The hypotheses of C69_partial: the driver knows `x`, the text declares `x, y` and defines
`phi := (x[t] > 0)`. -/
example : ∃ (d : Driver) (text : List Char) (d' : Driver), d.smap = [("x", 1)] ∧ d.formulas ≠ [] ∧
    Parses d.clear text true d' ∧ Parses (renewed d) text true d' ∧ d'.smap = [("x", 1), ("y", 2)] := by
  let d : Driver := { Driver.init with smap := [("x", 1)], formulas := [("old", mkConst "1")] }
  let f : Fml := .greater (.sig "x") (.num (.lit ⟨false, [0], []⟩))
  let D : Driver := { renewed d with smap := numbered (["x", "y"].foldl declare []) }
  have hd : ∀ s ∈ ["x", "y"], Declarable Driver.init s := by
    intro s hs
    simp only [List.mem_cons, List.not_mem_nil, or_false] at hs
    rcases hs with rfl | rfl
    · exact ⟨⟨'x', [], rfl, by decide, by simp⟩, by decide, rfl, rfl, fun _ => rfl⟩
    · exact ⟨⟨'y', [], rfl, by decide, by simp⟩, by decide, rfl, rfl, fun _ => rfl⟩
  have hok : ProgOk D D [.define "phi" f] :=
    ⟨⟨⟨⟨⟨'p', ['h', 'i'], rfl, by decide, by decide⟩, by decide⟩, rfl, rfl, rfl, rfl⟩,
      ⟨⟨⟨'x', [], rfl, by decide, by simp⟩, by decide⟩, rfl, rfl, 0, rfl⟩, by simp [SOk, NumOk]⟩, trivial⟩
  have hr : ReadsProg [.define "phi" f] _ := .cons (.define (prim_all (words_f f))) .nil
  obtain ⟨ts, hw, _⟩ := prog_follow hok hr
  have hsp := spelled_blanked (d := D) (.cons (word_reserved D (s := "signal") (k := Sym.SIGNAL_DECL)
    (by decide)) (.cons (word_name D (hd "x" (by simp)).ident) (.cons (word_comma D)
      (.cons (word_name D (hd "y" (by simp)).ident) hw)))) (by decide +kernel)
  obtain ⟨d', h1, h2⟩ := C69_partial (d := d) (names := ["x"]) (u := "x") (us := ["y"])
    ⟨rfl, by decide⟩ rfl (by decide) hd hok hr hsp
  refine ⟨d, _, d', rfl, by simp [d], h1, h2, ?_⟩
  have h3 := C61_declared (d := renewed d) (names := []) (u := "x") (us := ["y"])
    ⟨rfl, List.nodup_nil⟩ hd hok hr hsp
  obtain ⟨_, _, _, hu⟩ := C60_total (renewed d) (blanked _)
  rw [(hu _ _ h2).2, ← (hu _ _ h3).2]
  rfl

/-- A driver without signals and data is as new after `clear()`, for every text and every later
call. -/
theorem C69_new_partial {d : Driver} (hs : d.smap = []) (hdata : d.data = []) :
    d.clear = renewed d := by
  unfold Driver.clear renewed Driver.init
  rw [hdata, hs]

/-- What `clear()` leaves: settings, signals and data; and what it removes: formulas, parameters,
tests, report, log and counters. -/
theorem C69_clear (d : Driver) : d.clear.sem = d.sem ∧ d.clear.ip = d.ip ∧ d.clear.smap = d.smap ∧
    d.clear.data = d.data ∧ d.clear.formulas = [] ∧ d.clear.params = [] ∧ d.clear.stlTests = [] ∧
    d.clear.queue = [] ∧ d.clear.report = "" ∧ d.clear.testLog = "" ∧ d.clear.errorFlag = false ∧
    d.clear.nbTotal = 0 ∧ d.clear.nbPos = 0 :=
  ⟨rfl, rfl, rfl, rfl, rfl, rfl, rfl, rfl, rfl, rfl, rfl, rfl, rfl⟩

/-- The driver after reading a text. -/
def after69 (d : Driver) (text : String) : Driver := (parsed d text.toList).2

/-- What `get_online_rob` gives after one row. -/
def asked69 (d : Driver) (row : List ℚ) (id : String) : M (List ℚ) := do
  let d ← d.addSample row
  (d.getOnlineRob ⟨1000000, .SPACE, .LINEAR⟩ id 0).2.2

def old69 : Driver := after69 Driver.init "signal x, y\nphi := x[t] > 0"
def new69 : String := "signal y, x\nphi := y[t] > 0"

/-- A driver that read `signal x, y` is cleared and reads `signal y, x` with `phi := y[t] > 0`: it
takes the second column for `y`, a new driver the first. -/
theorem C69_false : ¬ C69_full ∧
    asked69 (after69 old69.clear new69) [0, 1, -1] "phi" = .ok [-1, -1, -1] ∧
    asked69 (after69 Driver.init new69) [0, 1, -1] "phi" = .ok [1, 1, 1] := by
  refine ⟨fun h => ?_, by decide +kernel, by decide +kernel⟩
  have h1 := (h old69 ["x", "y"] ⟨by decide +kernel, by decide⟩ new69.toList _ _).1
    (parsed_spec old69.clear new69.toList)
  have h2 := parsed_spec (renewed old69) new69.toList
  obtain ⟨b, d', _, hu⟩ := C60_total (renewed old69) new69.toList
  have e1 := (hu _ _ h1).2
  have e2 := (hu _ _ h2).2
  have : (parsed old69.clear new69.toList).2.smap = (parsed (renewed old69) new69.toList).2.smap := by
    rw [e1, e2]
  exact absurd this (by decide +kernel)

/-- The rows of the old trace stay: the cleared driver evaluates the new formula on them, where a
new driver has no data and returns nothing. -/
theorem C69_data_false :
    ((after69 { old69 with data := [[0, 5, 6]] }.clear "psi := x[t] > 0").getOnlineRob
      ⟨1000000, .SPACE, .LINEAR⟩ "psi" 0).2.2 = .ok [5, 5, 5] ∧
    ((after69 Driver.init "signal x, y\npsi := x[t] > 0").getOnlineRob
      ⟨1000000, .SPACE, .LINEAR⟩ "psi" 0).2.2 = .ok [] := by
  exact ⟨by decide +kernel, by decide +kernel⟩

end Props
end STLRom
