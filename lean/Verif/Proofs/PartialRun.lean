import Verif.Proofs.PartialBound

/-!
# A whole evaluation on an incomplete trace
-/

namespace STLRom
open Signal Spec

theorem known_forget (d : ℚ) (P : Assoc ℚ) : ∀ (T : Tr) (p : Bool) (s e : ℚ),
    known d P p s e (T.forgetB false) = known d P p s e T := by
  intro T
  induction T <;> intro p s e <;> cases p <;> simp_all [Tr.forgetB, known]

theorem robBound_forget (ip : Interpol) (B : ℚ) (D : List (List ℚ)) (P : Assoc ℚ) : ∀ (T : Tr) (p : Bool) (s e : ℚ),
    robBound ip B D P p s e (T.forgetB false) = robBound ip B D P p s e T := by
  intro T
  induction T with
  | atom st k l r => intro p s e; funext t; simp [Tr.forgetB, robBound, rob, expr_forget]
  | _ => intro p s e; funext t; cases p <;> simp_all [Tr.forgetB, robBound, known_forget]

theorem started_forget (d : ℚ) (P : Assoc ℚ) : ∀ (T : Tr) (p : Bool) (s : ℚ),
    Started d P p s (T.forgetB false) ↔ Started d P p s T := by
  intro T
  induction T <;> intro p s <;> cases p <;> simp_all [Tr.forgetB, Started]

theorem offEdge_forget (d : ℚ) (P : Assoc ℚ) : ∀ (T : Tr) (p : Bool) (s e : ℚ),
    OffEdge d P p s e (T.forgetB false) ↔ OffEdge d P p s e T := by
  intro T
  induction T <;> intro p s e <;> cases p <;> simp_all [Tr.forgetB, OffEdge, known_forget]

theorem uncut_forget (d : ℚ) (P : Assoc ℚ) : ∀ (T : Tr) (s e : ℚ),
    Uncut d P s e (T.forgetB false) ↔ Uncut d P s e T := by
  intro T
  induction T <;> intro s e <;> simp_all [Tr.forgetB, Uncut, isAtom_forget]

theorem noLongBound_forget (B : ℚ) (D : List (List ℚ)) (P : Assoc ℚ) : ∀ (T : Tr) (p : Bool) (s e : ℚ),
    NoLongBound B D P p s e (T.forgetB false) ↔ NoLongBound B D P p s e T := by
  intro T
  induction T <;> intro p s e <;> cases p <;>
    simp_all [Tr.forgetB, NoLongBound, known_forget, robBound_forget, isAtom_forget,
      marked_forget]

theorem atomsOkTo_forget (D : List (List ℚ)) (P : Assoc ℚ) : ∀ (T : Tr) (s e : ℚ),
    AtomsOkTo D P s e (T.forgetB false) ↔ AtomsOkTo D P s e T := by
  intro T
  induction T <;> intro s e <;> simp_all [Tr.forgetB, AtomsOkTo, isLeaf_forget, isAffine_forget]

theorem atomsWithinTo_forget (ip : Interpol) (B : ℚ) (D : List (List ℚ)) (P : Assoc ℚ) : ∀ (T : Tr) (s e : ℚ),
    AtomsWithinTo ip B D P s e (T.forgetB false) ↔ AtomsWithinTo ip B D P s e T := by
  intro T
  induction T <;> intro s e <;> simp_all [Tr.forgetB, AtomsWithinTo, expr_forget]

theorem sound_forget {B : ℚ} {D : List (List ℚ)} {P : Assoc ℚ} {p : Bool} {s e : ℚ} {T U : Tr}
    (h : T.forgetB false = U.forgetB false) (hS : Sound B D P p s e T) : Sound B D P p s e U :=
  ⟨by rw [← started_forget, ← h, started_forget]; exact hS.started,
   by rw [← offEdge_forget, ← h, offEdge_forget]; exact hS.offEdge,
   by rw [← uncut_forget, ← h, uncut_forget]; exact hS.uncut,
   by rw [← noLongBound_forget, ← h, noLongBound_forget]; exact hS.noLong⟩

/-- On an incomplete trace the evaluation returns, and its bounds are those of the interval
semantics. -/
theorem evalRob_bounds {g : Globals} {m : Monitor} {n : ℕ} {T : Tr} {s e : ℚ}
    (h : Begun .LINEAR n g.B m T s e) (hk : AtomsOkTo m.data m.params s e T) :
    ∃ g' m' v, m.evalRob g s e = (g', m', .ok v) ∧ ∀ p, Sound g.B m.data m.params p s e T →
      robBound .LINEAR g.B m.data m.params p s e T s = er (if p then m'.lowerRob else m'.upperRob) := by
  have hne : m.data ≠ [] := by
    obtain ⟨row, _, h1, _⟩ := h.first
    rintro h2
    rw [h2] at h1
    cases h1
  have hL : Feed (m.envOf g) n := ⟨⟨h.interpol, h.rows, h.names⟩, h.sem, hne, h.big⟩
  have hp : (Monitor.prepare m.params s e T).forgetB false = T.forgetB false :=
    Tr.forgetB_prepare (by simp [h.names]) s e T
  have hF0 := isFormula_prepare (P := m.params) T s e h.shape
  have hf := fresh_prepare m.params T s e
  set T0 := Monitor.prepare m.params s e T with hT0
  have hE := h.start.trans h.stop
  obtain ⟨T1, v, a1, a2⟩ := rob_any (env := m.envOf g) h.rows h.sem hne T0 hE hF0 hf
  have hT1 : T1.forgetB false = T.forgetB false := (Tr.forgetB_computeRob T0 a1).trans hp
  have hF1 : IsFormula n m.params T1 := by
    rw [← isFormula_forget, hT1, isFormula_forget]; exact h.shape
  obtain ⟨hA, _⟩ := part_first hL T0 h.start h.stop h.first hF0 hf
    (by show AtomsOkTo m.data m.params s e T0; rw [← atomsOkTo_forget, hp, atomsOkTo_forget]; exact hk)
    (by show AtomsWithinTo .LINEAR g.B m.data m.params s e T0
        rw [← atomsWithinTo_forget, hp, atomsWithinTo_forget]; exact h.within) T1 v a1
  obtain ⟨⟨T2, lo, b1, _⟩, ⟨T2', up, c1, _⟩⟩ := lu_any (env := m.envOf g) h.rows h.sem hne T1 hE hF1 a2
  obtain ⟨hS, _⟩ := rob_settles (env := m.envOf g) h.rows T0 hF0.stl hf a1
  obtain ⟨_, hk⟩ := bnd_keeps (env := m.envOf g) h.rows T1 hS (b := true) b1
  have part : ∀ p, Sound g.B m.data m.params p s e T → ∃ T' w, bnd (m.envOf g) p T1 = .ok (T', w) ∧
      robBound .LINEAR g.B m.data m.params p s e T s = er w := by
    intro p hs
    have hs' := sound_forget hT1.symm hs
    obtain ⟨T', w, d1, d2⟩ := bnd_part hL T1 h.start h.stop hF1 a2 hA hs'.started hs'.offEdge hs'.uncut hs'.noLong
    refine ⟨T', w, d1, ?_⟩
    rw [d2.val, ← robBound_forget, ← hT1, robBound_forget]
    exact d2.is s le_rfl d2.node.le
  rcases seen_cases hk.seen with ⟨x, e1, _⟩ | ⟨U', V1, w, e1, e2, _⟩
  · rw [show bnd (m.envOf g) (!true) T1 = Tr.computeUp (m.envOf g) T1 from rfl, c1] at e1; cases e1
  · have hr : Monitor.run3 (m.envOf g) T0 = .ok (V1, v, lo, w) := by
      simp only [Monitor.run3, a1, b1, bind, Except.bind]
      rw [show Tr.computeUp (m.envOf g) T2 = .ok (V1, w) from e2]
    refine ⟨{ g with sem := m.sem, ip := m.ip },
      { m with formula := some V1, rob := v, lowerRob := lo, upperRob := w }, v, ?_, ?_⟩
    · unfold Monitor.evalRob
      rw [h.formula]
      simp only
      rw [show Monitor.run3 ⟨g.B, m.sem, m.ip, m.data, m.params⟩ (Monitor.prepare m.params s e T) = _ from hr]
    · intro p hs
      obtain ⟨T', w', d1, d2⟩ := part p hs
      rw [d2]
      cases p
      · rw [show bnd (m.envOf g) (!true) T1 = bnd (m.envOf g) false T1 from rfl, d1] at e1
        rw [(Prod.mk.inj (Except.ok.inj e1)).2]; rfl
      · rw [show bnd (m.envOf g) true T1 = Tr.computeLow (m.envOf g) T1 from rfl, b1] at d1
        rw [← (Prod.mk.inj (Except.ok.inj d1)).2]; rfl

end STLRom
