import Verif.Proofs.Digits
import Verif.Props.ParseText
import Verif.Props.History
import Verif.Proofs.PrintRead

/-!
# Property C65: the printed text of a formula
-/

namespace STLRom
namespace Props
open Scan Text Parse Spec

/-- The text that defines `s` to be what is printed for `T`. -/
def shown (s : String) (T : Tr) : List Char := s.toList ++ (" := ".toList ++ T.print)

/-- The driver with `s` defined to be the nodes of `T`, new. -/
def redefined (d : Driver) (s : String) (T : Tr) : Driver :=
  { d with formulas := d.formulas.set s (renew d.smap T) }

/-- C65 in full: the text printed for a formula, parsed, defines the same formula. -/
def C65_full : Prop := ∀ (d : Driver) (s : String) (T : Tr), Spec.Fresh d s → Known d T → isTree T = true →
  Parses d (shown s T) true (redefined d s T)

theorem spelled_shown {s : String} (hs : Name s) {v : List Char} {ws : List (List Char)} (h : Spelled ws v) :
    Spelled (s.toList :: ":=".toList :: ws) (s.toList ++ (" := ".toList ++ v)) := by
  have hw : Word Driver.init ":=".toList ⟨Sym.ASSIGN, none⟩ := by
    refine word_sym _ (n := 21) (by decide +kernel) ?_
    exact .assign
  obtain ⟨n, h1, h2, h3⟩ := hw
  have hb : ∀ v : List Char, GapStart (' ' :: v) := by
    intro v c v' he
    simp only [List.cons.injEq] at he
    rw [← he.1]
    decide
  have g1 := spelled_word (stops_gap h1 h2 h3 (by decide) (by decide) (hb v)) (spelled_gap h)
  have g2 := spelled_ident (name_ident hs) (v := ' ' :: (":=".toList ++ ' ' :: v)) (by
    intro c v' he
    simp only [List.cons.injEq] at he
    rw [← he.1]
    decide) (spelled_gap g1)
  simpa using g2

/-- C65 where the grammar groups the operators as the formula does without parentheses, numbers
have at most six digits, and no number without sign stands right of `+` or `-`.  Missing: the other
formulas, for which it fails (`C65_false`, `C65_rejected_false`). -/
theorem C65_partial {d : Driver} {s : String} {T : Tr} (hs : Spec.Fresh d s) (hk : Known d T) (hc : Clear .all T) :
    Parses d (shown s T) true (redefined d s T) := by
  obtain ⟨f, ws, h1, h2, h3, h4⟩ := clear_fml hc hk
  have h5 := h4 [] [] tail_nil (.nil .nil)
  rw [List.append_nil, List.append_nil] at h5
  have := C41_grammar hs h2 h1 (spelled_shown hs.toName h5)
  rw [defined, h3] at this
  exact this

theorem forget_twice (T : Tr) : forget (forget T) = forget T := by
  induction T with
  | const s p v td =>
    simp only [forget, Tr.const.injEq, true_and, and_true]
    by_cases hp : p = "" <;> simp [hp]
  | _ => simp_all [forget]

/-- If `T` is as the parser makes formulas for the signals of the driver, the formula read back has
the same inputs: a monitor with the one and a monitor with the other, alike in all else, give the
same reply (robustness, both bounds, signal) whatever was computed before. -/
theorem C65_same_partial {d : Driver} {s : String} {T : Tr} (hs : Spec.Fresh d s) (hk : Known d T)
    (hc : Clear .all T) (hT : renew d.smap T = forget T) : ∃ d' T', Parses d (shown s T) true d' ∧
    d'.formulas.lookup s = some T' ∧ ∀ (g : Globals) (m : Monitor) (a b : ℚ), m.formula = some T →
      (({ m with formula := some T' } : Monitor).step g (.eval2 a b)).2.2 = (m.step g (.eval2 a b)).2.2 := by
  refine ⟨_, renew d.smap T, C65_partial hs hk hc, by simp [redefined, Assoc.lookup_set], ?_⟩
  intro g m a b hm
  exact C23_function g g rfl { m with formula := some (renew d.smap T) } m ⟨⟨_, _, rfl, hm,
    by rw [hT, forget_twice]⟩, rfl, rfl, rfl, rfl⟩ a b

/-- Every number is printed as the nearest number with six digits, which differs from it by at most
five millionths. -/
theorem C65_number (q : ℚ) : ∃ q', Nearest6 q q' ∧ Print.number q = Print.number q' ∧ |q' - q| ≤ |q| / 200000 := by
  obtain ⟨q', h⟩ := near6_exists q
  exact ⟨q', h, number_near h, near6_error h⟩

/-- With longer numbers, formulas that are grouped likewise are read back with the numbers rounded to
six digits, to even in the middle. -/
theorem C65_digits_partial {d : Driver} {s : String} {T T' : Tr} (hs : Spec.Fresh d s) (hk : Known d T)
    (hn : NearT T T') (hc : Clear .all T') : Parses d (shown s T) true (redefined d s T') := by
  have := C65_partial hs ((known_near hn).1 hk) hc
  rwa [shown, print_near hn, ← shown]

/-- Ties go to the even digit. -/
example : [1 / 3, -200 / 3, 1000005 / 10, 1000015 / 10, 12345675 / 1000000, 9999999 / 10, 99999999].map
    (fun q => String.ofList (Print.number q)) =
      ["0.333333", "-66.6667", "100000", "100002", "12.3457", "1e+06", "1e+08"] := by decide +kernel

/-- The driver of the witnesses. -/
def drvP : Driver := { Driver.init with smap := [("x", 1), ("y", 2)], params := [("p", 1)] }

theorem freshP : Spec.Fresh drvP "r" :=
  { ident := ⟨'r', [], rfl, by decide, by simp⟩
    word := by decide
    formula := rfl
    param := rfl
    signal := rfl
    test := rfl }

/-- The signal `x`. -/
def px : Tr := .sig .init "x" drvP.smap none
/-- The signal `y`. -/
def py : Tr := .sig .init "y" drvP.smap none
/-- A number. -/
def pc (v : ℚ) : Tr := .const .init "" v none
/-- `x < v`. -/
def xl (v : ℚ) : Tr := .atom .init .less px (pc v)
/-- `y < v`. -/
def yl (v : ℚ) : Tr := .atom .init .less py (pc v)

/-- Formulas that print the same text as another one, which is what the parser reads. -/
def samePrint : List (Tr × Tr) :=
  [(.not .init (.and .init (xl 0) (yl 0)), .and .init (.not .init (xl 0)) (yl 0)),
   (.or .init (.and .init (xl 0) (yl 0)) (xl 1), .and .init (xl 0) (.or .init (yl 0) (xl 1))),
   (.implies .init (.implies .init (xl 0) (yl 0)) (xl 1), .implies .init (xl 0) (.implies .init (yl 0) (xl 1))),
   (.atom .init .less (.minus .init px (.minus .init py px)) (pc 0),
     .atom .init .less (.minus .init (.minus .init px py) px) (pc 0)),
   (.atom .init .less (.mult .init px (.plus .init py px)) (pc 0),
     .atom .init .less (.plus .init (.mult .init px py) px) (pc 0)),
   (xl (1234567 / 10000000), xl (123457 / 1000000))]

theorem short_nat (n : ℕ) (h : n < 10 ^ 6) : Short n := by
  by_cases h0 : n = 0
  · left; simp [h0]
  · right
    have : (1 : ℚ) ≤ n := by exact_mod_cast Nat.one_le_iff_ne_zero.2 h0
    refine ⟨?_, n, 0, h, by simp⟩
    rw [abs_of_nonneg (by linarith)]
    linarith [show (1 : ℚ) / 10 ^ 4 ≤ 1 by norm_num]

theorem clear_px : ClearS false px := .single .sig
theorem clear_py : ClearS false py := .single .sig
theorem clear_xl {v : ℚ} (h : Short v) : Clear .prim (xl v) := .atom clear_px (.single (.const h))
theorem clear_yl {v : ℚ} (h : Short v) : Clear .prim (yl v) := .atom clear_py (.single (.const h))
theorem short0 : Short 0 := .inl rfl
theorem short1 : Short 1 := by simpa using short_nat 1 (by norm_num)

theorem prim_chain_clear {T : Tr} (h : Clear .prim T) : Clear .chain T :=
  .chain (k := .unt) (.inl rfl) (.one (k := .prim) (.inl rfl) h)

theorem known_sig {x : String} (h : x = "x" ∨ x = "y") : SOk drvP (.sig x) := by
  rcases h with rfl | rfl
  · exact ⟨{ ident := ⟨'x', [], rfl, by decide, by simp⟩, word := by decide }, rfl, rfl, 0, rfl⟩
  · exact ⟨{ ident := ⟨'y', [], rfl, by decide, by simp⟩, word := by decide }, rfl, rfl, 1, rfl⟩

/-- Each first formula prints the text of the second, is not the second, and the second is read
back. -/
theorem samePrint_spec : ∀ p ∈ samePrint, p.1.print = p.2.print ∧ isTree p.1 = true ∧ Known drvP p.1 ∧
    Known drvP p.2 ∧ Clear .all p.2 ∧ renew drvP.smap p.1 ≠ renew drvP.smap p.2 := by
  have kx : SOk drvP (.sig "x") := known_sig (.inl rfl)
  have ky : SOk drvP (.sig "y") := known_sig (.inr rfl)
  have ke : KnownP drvP "" := .inl rfl
  have c0 := prim_chain_clear (clear_xl short0)
  have c1 := prim_chain_clear (clear_xl short1)
  have d0 := prim_chain_clear (clear_yl short0)
  have hp : ∀ p ∈ samePrint, p.1.print = p.2.print ∧ isTree p.1 = true ∧
      renew drvP.smap p.1 ≠ renew drvP.smap p.2 := by decide +kernel
  have hk : ∀ p ∈ samePrint, Known drvP p.1 ∧ Known drvP p.2 := by
    simp [samePrint, Known, xl, yl, px, py, pc, kx, ky, ke]
  have hc : ∀ p ∈ samePrint, Clear .all p.2 := by
    simp only [samePrint, List.mem_cons, List.not_mem_nil, or_false, forall_eq_or_imp, forall_eq]
    refine ⟨?_, ?_, ?_, ?_, ?_, ?_⟩
    · exact .and (.all (.chain (k := .notOr) (by simp) (.one (k := .preOr) (by simp)
        (.not (k := .unt) (by simp) (.one (k := .prim) (by simp) (clear_xl short0)))))) d0
    · exact .and (.all c0) (.or (k := .unt) (by simp) (.one (k := .prim) (by simp) (clear_yl short0)) c1)
    · exact .all (.implies (.one (k := .prim) (by simp) (clear_xl short0))
        (.implies (.one (k := .prim) (by simp) (clear_yl short0)) c1))
    · exact .all (prim_chain_clear (.atom (.minus (.minus clear_px .sig (by simp [Unsigned, py])) .sig
        (by simp [Unsigned, px])) (.single (.const short0))))
    · exact .all (prim_chain_clear (.atom (.plus (.mult clear_px .sig) .sig
        (by simp [Unsigned, px])) (.single (.const short0))))
    · refine .all (prim_chain_clear (clear_xl (.inr ⟨?_, 123457, 6, by norm_num, ?_⟩)))
      · norm_num [abs_of_pos]
      · norm_num [abs_of_pos]
  exact fun p hp' => ⟨(hp p hp').1, (hp p hp').2.1, (hk p hp').1, (hk p hp').2, hc p hp', (hp p hp').2.2⟩

/-- Printing loses parentheses and digits: these texts are read back as another formula. -/
theorem C65_false : ¬ C65_full ∧ ∀ p ∈ samePrint, Parses drvP (shown "r" p.1) true (redefined drvP "r" p.2) ∧
    ¬ Parses drvP (shown "r" p.1) true (redefined drvP "r" p.1) := by
  have key : ∀ p ∈ samePrint, Parses drvP (shown "r" p.1) true (redefined drvP "r" p.2) ∧
      ¬ Parses drvP (shown "r" p.1) true (redefined drvP "r" p.1) := by
    intro p hp
    obtain ⟨h1, _, _, h4, h5, h6⟩ := samePrint_spec p hp
    have h7 : Parses drvP (shown "r" p.1) true (redefined drvP "r" p.2) := by
      rw [shown, h1]
      exact C65_partial freshP h4 h5
    refine ⟨h7, fun h8 => h6 ?_⟩
    obtain ⟨b, d', _, hu⟩ := C60_total drvP (shown "r" p.1)
    have e : redefined drvP "r" p.1 = redefined drvP "r" p.2 := (hu _ _ h8).2.trans (hu _ _ h7).2.symm
    have e := congrArg (fun d : Driver => d.formulas.lookup "r") e
    simpa [redefined, Assoc.lookup_set] using e
  refine ⟨fun h => ?_, key⟩
  obtain ⟨_, h2, h3, _⟩ := samePrint_spec _ (List.mem_cons_self ..)
  exact (key _ (List.mem_cons_self ..)).2 (h drvP "r" _ freshP h3 h2)

/-- The two readings of the first text give robustness of opposite sign: the formula printed is
satisfied, the formula read back is violated. -/
theorem C65_sign_false : ∀ ip : Interpol, ∃ T T', samePrint.head? = some (T, T') ∧
    ((⟨[[0, 1, 1], [1, 1, 1]], [], drvP.smap, 0, 0, 0, 0, 0, some T, .SPACE, ip⟩ : Monitor).evalRob .init 0 0).2.2 =
      .ok 1 ∧
    ((⟨[[0, 1, 1], [1, 1, 1]], [], drvP.smap, 0, 0, 0, 0, 0, some T', .SPACE, ip⟩ : Monitor).evalRob .init 0 0).2.2 =
      .ok (-1) := by
  intro ip
  refine ⟨_, _, rfl, ?_, ?_⟩
  · cases ip <;> decide +kernel
  · cases ip <;> decide +kernel

/-- A number after `+` or `-`, and large or small numbers: the parser rejects the text, and the name
stays undefined. -/
theorem C65_rejected_false : ∀ T ∈ [.atom .init .less (.plus .init px (pc 3)) (pc 0),
      .atom .init .less (.minus .init px (pc 3)) (pc 0), xl 1000000, xl (1 / 100000)],
    isTree T = true ∧ Known drvP T ∧ ∃ d', Parses drvP (shown "r" T) false d' := by
  intro T hT
  have kx : SOk drvP (.sig "x") := known_sig (.inl rfl)
  have ke : KnownP drvP "" := .inl rfl
  simp only [List.mem_cons, List.not_mem_nil, or_false] at hT
  have key : ∀ T ∈ [.atom .init .less (.plus .init px (pc 3)) (pc 0),
      .atom .init .less (.minus .init px (pc 3)) (pc 0), xl 1000000, xl (1 / 100000)],
      isTree T = true ∧ (parsed drvP (shown "r" T)).1 = false := by decide +kernel
  have hk := key T (by simpa using hT)
  refine ⟨hk.1, ?_, _, hk.2 ▸ parsed_spec drvP (shown "r" T)⟩
  rcases hT with rfl | rfl | rfl | rfl <;> simp [Known, xl, px, pc, kx, ke]

/-- A formula that is read back. -/
def clearF : Tr :=
  .and .init (.ev .init ⟨0, 0, "", "p"⟩ (.or .init (xl 1) (.not .init (yl 0))))
    (.implies .init (yl 0) (.untl .init (xl 0) ⟨1, 12345 / 1000, "", ""⟩ (.and .init (xl 0) (yl 1))))

example : String.ofList clearF.print =
    "ev_[0,p] (x[t] < 1 or not y[t] < 0)  and y[t] < 0 =>  (x[t] < 0) until_[1,12.345] (x[t] < 0 and y[t] < 1) " := by
  decide +kernel

theorem known_p : KnownP drvP "p" :=
  .inr ⟨{ ident := ⟨'p', [], rfl, by decide, by simp⟩, word := by decide }, rfl, 1, rfl⟩

example : Spec.Fresh drvP "r" ∧ Known drvP clearF ∧ Clear .all clearF ∧ renew drvP.smap clearF = forget clearF := by
  have kx : SOk drvP (.sig "x") := known_sig (.inl rfl)
  have ky : SOk drvP (.sig "y") := known_sig (.inr rfl)
  have ke : KnownP drvP "" := .inl rfl
  have c0 := prim_chain_clear (clear_xl short0)
  have c1 := prim_chain_clear (clear_xl short1)
  have d0 := prim_chain_clear (clear_yl short0)
  have d1 := prim_chain_clear (clear_yl short1)
  refine ⟨freshP, ?_, ?_, by decide +kernel⟩
  · simp [clearF, Known, xl, yl, px, py, pc, kx, ky, ke, known_p]
  · refine .and (.all (prim_chain_clear (.ev ⟨fun _ => short0, by simp⟩ (.all (.or (k := .unt) (by simp)
      (.one (k := .prim) (by simp) (clear_xl short1)) (.chain (k := .notOr) (by simp) (.one (k := .preOr) (by simp)
        (.not (k := .unt) (by simp) (.one (k := .prim) (by simp) (clear_yl short0)))))))))) ?_
    refine .implies (.one (k := .prim) (by simp) (clear_yl short0)) (.chain (k := .unt) (by simp)
      (.untl ⟨fun _ => short1, fun _ => .inr ⟨?_, 12345, 3, by norm_num, ?_⟩⟩ (.all c0) (.and (.all c0) d1)))
    · norm_num [abs_of_pos]
    · norm_num [abs_of_pos]

/-- `x[t] < 1/3` is read back as `x[t] < 0.333333`. -/
example : Parses drvP (shown "r" (xl (1 / 3))) true (redefined drvP "r" (xl (333333 / 1000000))) := by
  have h : NearT (xl (1 / 3)) (xl (333333 / 1000000)) := by
    refine .atom .sig (.const (.inr ⟨-1, 333333, ?_, ?_, ?_, ?_, ?_⟩))
    · norm_num [abs_of_pos]
    · norm_num [abs_of_pos]
    · norm_num
    · norm_num [abs_of_pos, abs_of_neg]
    · norm_num [abs_of_pos, abs_of_neg]
  refine C65_digits_partial freshP ?_ h (.all (prim_chain_clear (clear_xl (.inr ⟨?_, 333333, 6, ?_, ?_⟩))))
  · exact ⟨known_sig (.inl rfl), .inl rfl⟩
  · norm_num [abs_of_pos]
  · norm_num
  · norm_num [abs_of_pos]

end Props
end STLRom
