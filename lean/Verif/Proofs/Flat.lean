import Verif.Proofs.Accept
import Verif.Props.ParseText

/-!
# Every sequence of operators and operands has a reading

The grammar of the parser file leaves open how operators bind.  Its formulas are units joined by
binary operators, a unit being a comparison, a name or parentheses after prefixes; every such
sequence is read by the unambiguous grammar of `Spec.Grammar`.
-/

namespace STLRom
namespace Parse
open Scan Text Props Spec

variable {d : Driver}

/-- `ws` can be read as a formula of category `k` with names the driver knows. -/
def RF (d : Driver) (k : Cat) (ws : List (List Char)) : Prop := ∃ f, ReadsF k f ws ∧ FOk d f

/-- A prefix: `ev_` or `alw_` with an interval, or `not`. -/
inductive Pre (d : Driver) : List (List Char) → Prop where
  | ev {w i a b} : Key.ev.Is w → ReadsI a b i → NumOk d a → NumOk d b → Pre d (w :: i)
  | alw {w i a b} : Key.alw.Is w → ReadsI a b i → NumOk d a → NumOk d b → Pre d (w :: i)
  | not {w} : Key.not.Is w → Pre d [w]

/-- A binary operator. -/
inductive Bin (d : Driver) : List (List Char) → Prop where
  | and {w} : Key.and.Is w → Bin d [w]
  | or {w} : Key.or.Is w → Bin d [w]
  | implies {w} : Key.implies.Is w → Bin d [w]
  | untl {w i a b} : Key.untl.Is w → ReadsI a b i → NumOk d a → NumOk d b → Bin d (w :: i)

/-- Units joined by binary operators. -/
inductive Flat (d : Driver) : List (List Char) → Prop where
  | prim {ws} : RF d .prim ws → Flat d ws
  | pre {p ws} : Pre d p → Flat d ws → Flat d (p ++ ws)
  | join {u o v} : RF d .prim u → Bin d o → Flat d v → Flat d (u ++ (o ++ v))

theorem Flat.append {u o v : List (List Char)} (hu : Flat d u) (ho : Bin d o) (hv : Flat d v) :
    Flat d (u ++ (o ++ v)) := by
  induction hu with
  | prim h => exact .join h ho hv
  | pre hp _ ih => rw [List.append_assoc]; exact .pre hp ih
  | join h ho' _ ih => rw [List.append_assoc, List.append_assoc]; exact .join h ho' ih

theorem rf_prim {ws : List (List Char)} (h : RF d .prim ws) : RF d .unt ws := by
  obtain ⟨f, h, ho⟩ := h
  exact ⟨f, .one (.inl rfl) h, ho⟩

theorem rf_unt {ws : List (List Char)} (h : RF d .unt ws) : RF d .chain ws := by
  obtain ⟨f, h, ho⟩ := h
  exact ⟨f, .chain (.inl rfl) h, ho⟩

theorem rf_all {ws : List (List Char)} (h : RF d .chain ws) : RF d .all ws := by
  obtain ⟨f, h, ho⟩ := h
  exact ⟨f, .all h, ho⟩

/-- Two formulas joined by `and`. -/
theorem rf_and {u w v} (hw : Key.and.Is w) (hu : RF d .all u) (hv : RF d .all v) :
    RF d .all (u ++ w :: v) := by
  obtain ⟨f, hf, hfo⟩ := hu
  obtain ⟨g, hg, hgo⟩ := hv
  generalize hk : Cat.all = k at hg
  induction hg with
  | all h => exact ⟨.and f _, .and hf hw h, hfo, hgo⟩
  | @and f' g' u' w' v' h1 h2 h3 ih =>
    obtain ⟨e, he, heo⟩ := ih hgo.1 rfl
    refine ⟨.and e g', ?_, heo, hgo.2⟩
    have := ReadsF.and he h2 h3
    simpa using this
  | one hk' _ => rcases hk' with rfl | rfl | rfl <;> simp [Cat.join] at hk
  | untl hk' _ _ _ _ => rcases hk' with rfl | rfl | rfl <;> simp [Cat.join] at hk
  | ev hk' _ _ _ => rcases hk' with rfl | rfl | rfl <;> simp at hk
  | alw hk' _ _ _ => rcases hk' with rfl | rfl | rfl <;> simp at hk
  | _ => simp at hk

/-- Categories of formulas joined by `until_`. -/
def Unt (k : Cat) : Prop := k = .unt ∨ k = .notOr ∨ k = .notAnd

/-- What stands before the first unit can be added to it. -/
structure Adds (d : Driver) (p : List (List Char)) : Prop where
  /-- before a unit -/
  one : ∀ k ws, k = .prim ∨ k = .preOr ∨ k = .preAnd → RF d k ws → RF d k.join (p ++ ws)

theorem adds_unt {p} (h : Adds d p) {k : Cat} (hk : Unt k) {ws} (hw : RF d k ws) : RF d k (p ++ ws) := by
  obtain ⟨f, hf, ho⟩ := hw
  induction hf with
  | @one k f ws hk' h' _ => exact h.one k ws hk' ⟨f, h', ho⟩
  | @untl k f a b g u w i v hk' h1 h2 h3 h4 ih1 _ =>
    obtain ⟨ha, hb, hof, hog⟩ := ho
    obtain ⟨f', hf', ho'⟩ := ih1 (.inl rfl) hof
    refine ⟨.untl f' a b g, ?_, ha, hb, ho', hog⟩
    rw [← List.append_assoc]
    exact .untl hk' hf' h2 h3 h4
  | ev hk' _ _ _ => rcases hk' with rfl | rfl | rfl <;> simp [Unt] at hk
  | alw hk' _ _ _ => rcases hk' with rfl | rfl | rfl <;> simp [Unt] at hk
  | _ => simp [Unt] at hk

/-- The three ways to be a chain. -/
theorem chain_cases {ws} (hw : RF d .chain ws) :
    (∃ k, Unt k ∧ RF d k ws) ∨
    (∃ k u w v, (k = .unt ∨ k = .notOr) ∧ RF d k u ∧ Key.or.Is w ∧ RF d .chain v ∧ ws = u ++ w :: v) ∨
    (∃ u w v, RF d .unt u ∧ Key.implies.Is w ∧ RF d .chain v ∧ ws = u ++ w :: v) := by
  obtain ⟨f, hf, ho⟩ := hw
  generalize hk : Cat.chain = c at hf
  cases hf with
  | chain hu h => exact .inl ⟨_, hu, f, h, ho⟩
  | or hu h1 h2 h3 => exact .inr (.inl ⟨_, _, _, _, hu, ⟨_, h1, ho.1⟩, h2, ⟨_, h3, ho.2⟩, rfl⟩)
  | implies h1 h2 h3 => exact .inr (.inr ⟨_, _, _, ⟨_, h1, ho.1⟩, h2, ⟨_, h3, ho.2⟩, rfl⟩)
  | one hk' _ => rcases hk' with rfl | rfl | rfl <;> simp [Cat.join] at hk
  | untl hk' _ _ _ _ => rcases hk' with rfl | rfl | rfl <;> simp [Cat.join] at hk
  | ev hk' _ _ _ => rcases hk' with rfl | rfl | rfl <;> simp at hk
  | alw hk' _ _ _ => rcases hk' with rfl | rfl | rfl <;> simp at hk
  | _ => simp at hk

theorem rf_or {k u w v} (hk : k = .unt ∨ k = .notOr) (hu : RF d k u) (hw : Key.or.Is w)
    (hv : RF d .chain v) : RF d .chain (u ++ w :: v) := by
  obtain ⟨f, hf, ho⟩ := hu
  obtain ⟨g, hg, ho'⟩ := hv
  exact ⟨_, .or hk hf hw hg, ho, ho'⟩

theorem rf_implies {u w v} (hu : RF d .unt u) (hw : Key.implies.Is w)
    (hv : RF d .chain v) : RF d .chain (u ++ w :: v) := by
  obtain ⟨f, hf, ho⟩ := hu
  obtain ⟨g, hg, ho'⟩ := hv
  exact ⟨_, .implies hf hw hg, ho, ho'⟩

theorem rf_chain {k ws} (hk : Unt k) (h : RF d k ws) : RF d .chain ws := by
  obtain ⟨f, hf, ho⟩ := h
  exact ⟨f, .chain hk hf, ho⟩

theorem adds_chain {p} (h : Adds d p) {ws} (hw : RF d .chain ws) : RF d .chain (p ++ ws) := by
  rcases chain_cases hw with ⟨k, hk, hw⟩ | ⟨k, u, w, v, hk, h1, h2, h3, rfl⟩ | ⟨u, w, v, h1, h2, h3, rfl⟩
  · exact rf_chain hk (adds_unt h hk hw)
  · rw [← List.append_assoc]
    exact rf_or hk (adds_unt h (by rcases hk with rfl | rfl <;> simp [Unt]) h1) h2 h3
  · rw [← List.append_assoc]
    exact rf_implies (adds_unt h (.inl rfl) h1) h2 h3

theorem adds_ev {w i a b} (hw : Key.ev.Is w) (hi : ReadsI a b i) (ha : NumOk d a) (hb : NumOk d b) :
    Adds d (w :: i) where
  one := by
    rintro k ws hk ⟨f, hf, ho⟩
    exact ⟨.ev a b f, .one hk (.ev hk hw hi hf), ha, hb, ho⟩

theorem adds_alw {w i a b} (hw : Key.alw.Is w) (hi : ReadsI a b i) (ha : NumOk d a) (hb : NumOk d b) :
    Adds d (w :: i) where
  one := by
    rintro k ws hk ⟨f, hf, ho⟩
    exact ⟨.alw a b f, .one hk (.alw hk hw hi hf), ha, hb, ho⟩

theorem adds_untl {u w i a b} (hu : RF d .prim u) (hw : Key.untl.Is w) (hi : ReadsI a b i)
    (ha : NumOk d a) (hb : NumOk d b) : Adds d (u ++ w :: i) where
  one := by
    rintro k ws hk ⟨f, hf, ho⟩
    obtain ⟨g, hg, ho'⟩ := rf_prim hu
    refine ⟨.untl g a b f, ?_, ha, hb, ho', ho⟩
    have := ReadsF.untl hk hg hw hi hf
    simpa using this

theorem adds_not {w ws} (hw : Key.not.Is w) (h : RF d .chain ws) : RF d .chain (w :: ws) := by
  have pre : ∀ {k ws}, (k = .unt ∨ k = .notOr) → RF d k ws → RF d .notOr (w :: ws) := by
    rintro k ws hk ⟨f, hf, ho⟩
    exact ⟨.not f, .one (k := .preOr) (by simp) (.not hk hw hf), ho⟩
  rcases chain_cases h with ⟨k, hk, f, hf, ho⟩ | ⟨k, u, x, v, hk, h1, h2, h3, rfl⟩ |
    ⟨u, x, v, ⟨f, h1, ho1⟩, h2, ⟨g, h3, ho3⟩, rfl⟩
  · rcases hk with rfl | rfl | rfl
    · exact rf_chain (by simp [Unt]) (pre (.inl rfl) ⟨f, hf, ho⟩)
    · exact rf_chain (by simp [Unt]) (pre (.inr rfl) ⟨f, hf, ho⟩)
    · exact rf_chain (k := .notAnd) (by simp [Unt])
        ⟨.not f, .one (k := .preAnd) (by simp) (.notAnd hw hf), ho⟩
  · rw [← List.cons_append]
    exact rf_or (.inr rfl) (pre hk h1) h2 h3
  · exact rf_chain (k := .notAnd) (by simp [Unt])
      ⟨.not (.implies f g), .one (k := .preAnd) (by simp) (.notImplies hw h1 h2 h3), ho1, ho3⟩

/-- A formula is a chain, or a chain, `and` and a formula. -/
theorem all_cases {ws} (hw : RF d .all ws) : RF d .chain ws ∨
    ∃ u w v, RF d .chain u ∧ Key.and.Is w ∧ RF d .all v ∧ ws = u ++ w :: v := by
  obtain ⟨f, hf, ho⟩ := hw
  generalize hk : Cat.all = c at hf
  induction hf with
  | all h _ => exact .inl ⟨_, h, ho⟩
  | @and f g u w v h1 h2 h3 ih _ =>
    rcases ih ho.1 rfl with h | ⟨u', w', v', h4, h5, h6, rfl⟩
    · exact .inr ⟨u, w, v, h, h2, rf_all ⟨g, h3, ho.2⟩, rfl⟩
    · exact .inr ⟨u', w', v' ++ w :: v, h4, h5, rf_and h2 h6 (rf_all ⟨g, h3, ho.2⟩), by simp⟩
  | one hk' _ => rcases hk' with rfl | rfl | rfl <;> simp [Cat.join] at hk
  | untl hk' _ _ _ _ => rcases hk' with rfl | rfl | rfl <;> simp [Cat.join] at hk
  | ev hk' _ _ _ => rcases hk' with rfl | rfl | rfl <;> simp at hk
  | alw hk' _ _ _ => rcases hk' with rfl | rfl | rfl <;> simp at hk
  | _ => simp at hk

/-- What can be put before a chain can be put before a formula. -/
theorem all_pre {p : List (List Char)} (h : ∀ ws, RF d .chain ws → RF d .chain (p ++ ws)) {ws}
    (hw : RF d .all ws) : RF d .all (p ++ ws) := by
  rcases all_cases hw with hw | ⟨u, w, v, h1, h2, h3, rfl⟩
  · exact rf_all (h _ hw)
  · rw [← List.append_assoc]
    exact rf_and h2 (rf_all (h _ h1)) h3

theorem Flat.all {ws : List (List Char)} (h : Flat d ws) : RF d .all ws := by
  induction h with
  | prim h => exact rf_all (rf_unt (rf_prim h))
  | pre hp _ ih =>
    refine all_pre (fun ws hw => ?_) ih
    cases hp with
    | ev h1 h2 h3 h4 => exact adds_chain (adds_ev h1 h2 h3 h4) hw
    | alw h1 h2 h3 h4 => exact adds_chain (adds_alw h1 h2 h3 h4) hw
    | not h1 => exact adds_not h1 hw
  | @join u o v hu ho _ ih =>
    cases ho with
    | and hw => exact rf_and hw (rf_all (rf_unt (rf_prim hu))) ih
    | @or w hw =>
      have := all_pre (p := u ++ [w]) (fun ws h => by
        simpa using rf_or (.inl rfl) (rf_prim hu) hw h) ih
      simpa using this
    | @implies w hw =>
      have := all_pre (p := u ++ [w]) (fun ws h => by
        simpa using rf_implies (rf_prim hu) hw h) ih
      simpa using this
    | untl h1 h2 h3 h4 =>
      have := all_pre (fun ws h => adds_chain (adds_untl hu h1 h2 h3 h4) h) ih
      simpa using this

end Parse
end STLRom
