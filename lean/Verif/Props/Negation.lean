import Verif.Props.Online
import Verif.Proofs.LowUp

/-!
# Property C29: the bounds and the robustness of a negation
-/

namespace STLRom
namespace Props
open Signal Spec

theorem isTerm_prepare {P : Assoc ℚ} {s e : ℚ} {T : Tr} (h : IsTerm T) :
    IsTerm (Monitor.prepare P s e T) := by
  unfold Monitor.prepare
  induction T generalizing s e with
  | sig | const => trivial
  | abs _ c ih => exact ih h
  | plus _ l r ih1 ih2 | minus _ l r ih1 ih2 | mult _ l r ih1 ih2 => exact ⟨ih1 h.1, ih2 h.2⟩
  | _ => exact h.elim

theorem isStl_prepare {P : Assoc ℚ} {s e : ℚ} {T : Tr} (h : IsStl T) :
    IsStl (Monitor.prepare P s e T) := by
  unfold Monitor.prepare
  induction T generalizing s e with
  | atom _ k l r => exact ⟨isTerm_prepare h.1, isTerm_prepare h.2⟩
  | not _ c ih => exact ih h
  | ev _ I c ih | alw _ I c ih => exact ih h
  | and _ l r ih1 ih2 | or _ l r ih1 ih2 | implies _ l r ih1 ih2 | untl _ l _ r ih1 ih2 =>
    exact ⟨ih1 h.1, ih2 h.2⟩
  | _ => exact h.elim

theorem front_not {z : Signal} {p : Sample} (h : z.front = .ok p) :
    ∃ q, (computeNot z).front = .ok q ∧ q.value = -p.value := by
  obtain ⟨l, b, e⟩ := z
  cases l with
  | nil => cases h
  | cons a l =>
    have : a = p := by
      simpa [Signal.front] using h
    exact ⟨⟨a.time, -a.value, -a.derivative⟩, rfl, by rw [this]⟩

theorem front_some {z : Signal} {p : Sample} (h : z.front = .ok p) : z.samples ≠ [] := by
  intro h1
  simp [Signal.front, h1] at h

/-- A bound of `not c` is the negated other bound of `c`. -/
theorem bnd_not {env : Env} {b : Bool} {s : St} {c c' : Tr} {x : ℚ} (he : pick b s = .empty)
    (h : bnd env (!b) c = .ok (c', x))
    (hv : (pick (!b) c'.st).samples = [] ∧ x = (if !b then -env.B else env.B) ∨
      ∃ p, (pick (!b) c'.st).front = .ok p ∧ x = p.value) :
    ∃ s', bnd env b (.not s c) = .ok (.not s' c', -x) ∧ pick (!b) s' = pick (!b) s := by
  have app : ∀ t v, Signal.appendSample0 env.ip .empty t v = .ok ⟨[⟨t, v, 0⟩], t, t⟩ := by
    intro t v
    unfold Signal.appendSample0 Signal.appendSample
    rw [if_neg (by simp [Signal.empty])]
    cases env.ip <;> rfl
  cases b with
  | true =>
    have h : Tr.computeUp env c = .ok (c', x) := h
    have he : s.zlow = .empty := he
    have hv : (c'.st.zup).samples = [] ∧ x = env.B ∨
      ∃ p, (c'.st.zup).front = .ok p ∧ x = p.value := hv
    show ∃ s', Tr.computeLow env (.not s c) = .ok (.not s' c', -x) ∧ s'.zup = s.zup
    simp only [Tr.computeLow, h, ok_bind]
    rcases hv with ⟨h1, rfl⟩ | ⟨p, h1, rfl⟩
    · rw [if_pos (by rw [h1]), he, app]
      exact ⟨_, rfl, rfl⟩
    · rw [if_neg (by have := front_some h1; cases hz : c'.st.zup.samples <;> simp_all)]
      obtain ⟨q, h2, h3⟩ := front_not h1
      rw [h2, ← h3]
      exact ⟨_, rfl, rfl⟩
  | false =>
    have h : Tr.computeLow env c = .ok (c', x) := h
    have he : s.zup = .empty := he
    have hv : (c'.st.zlow).samples = [] ∧ x = -env.B ∨
      ∃ p, (c'.st.zlow).front = .ok p ∧ x = p.value := hv
    show ∃ s', Tr.computeUp env (.not s c) = .ok (.not s' c', -x) ∧ s'.zlow = s.zlow
    simp only [Tr.computeUp, h, ok_bind]
    rcases hv with ⟨h1, rfl⟩ | ⟨p, h1, rfl⟩
    · rw [if_pos (by rw [h1]), he, app, neg_neg]
      exact ⟨_, rfl, rfl⟩
    · rw [if_neg (by have := front_some h1; cases hz : c'.st.zlow.samples <;> simp_all)]
      obtain ⟨q, h2, h3⟩ := front_not h1
      rw [h2, ← h3]
      exact ⟨_, rfl, rfl⟩

/-- A run of `c` gives a run of `not c`. -/
theorem run3_not {env : Env} {n : ℕ} (hD : WellShaped n env.data)
    {P : Assoc ℚ} {S E : ℚ} {T : Tr} (hT : IsStl T) (hf : Fresh P S E T) {s : St}
    (hlow : s.zlow = .empty) (hup : s.zup = .empty) {r lo up : ℚ} :
    (∃ U, Monitor.run3 env T = .ok (U, r, lo, up)) ↔
      ∃ U, Monitor.run3 env (.not s T) = .ok (U, -r, -up, -lo) := by
  constructor
  · rintro ⟨U, h⟩
    unfold Monitor.run3 at h
    obtain ⟨⟨T0, x⟩, h1, h⟩ := bind_eq_ok.1 h
    obtain ⟨⟨T1, y⟩, h2, h⟩ := bind_eq_ok.1 h
    obtain ⟨⟨T2, z⟩, h3, h⟩ := bind_eq_ok.1 h
    simp only [Except.ok.injEq, Prod.mk.injEq] at h
    obtain ⟨rfl, rfl, rfl, rfl⟩ := h
    obtain ⟨k1, k2, k3, ⟨p, k4, k5⟩, _⟩ := rob_settles hD T hT hf h1
    obtain ⟨U', V', a1, a2, a3, a4⟩ := bnd_swap (b := true) hD k1 h2 h3
    have hv1 := bnd_value k1 (b := false) k3 a1
    have hv2 := bnd_value k1 (b := true) k2 h2
    rw [← a4] at hv2
    obtain ⟨q, k6, k7⟩ := front_not k4
    have r1 : Tr.computeRob env (.not s T) = .ok (.not { s with z := computeNot T0.st.z } T0, -x) := by
      simp only [Tr.computeRob, h1, ok_bind, k6, k7, k5]
    obtain ⟨s1, b1, b2⟩ := bnd_not (b := true) (s := { s with z := computeNot T0.st.z }) hlow a1 hv1
    obtain ⟨s2, b3, _⟩ := bnd_not (b := false) (s := s1) (b2.trans hup) a2 hv2
    have b1 : Tr.computeLow env _ = _ := b1
    have b3 : Tr.computeUp env _ = _ := b3
    refine ⟨.not s2 V', ?_⟩
    unfold Monitor.run3
    simp only [r1, ok_bind, b1, b3]
  · rintro ⟨U, h⟩
    unfold Monitor.run3 at h
    obtain ⟨⟨W0, x⟩, h1, h⟩ := bind_eq_ok.1 h
    obtain ⟨⟨W1, y⟩, h2, h⟩ := bind_eq_ok.1 h
    obtain ⟨⟨W2, z⟩, h3, h⟩ := bind_eq_ok.1 h
    simp only [Except.ok.injEq, Prod.mk.injEq] at h
    obtain ⟨rfl, e1, e2, e3⟩ := h
    simp only [Tr.computeRob] at h1
    obtain ⟨⟨T0, x0⟩, g1, h1⟩ := bind_eq_ok.1 h1
    obtain ⟨q, g2, h1⟩ := bind_eq_ok.1 h1
    simp only [Except.ok.injEq, Prod.mk.injEq] at h1
    obtain ⟨rfl, rfl⟩ := h1
    obtain ⟨k1, k2, k3, ⟨p, k4, k5⟩, _⟩ := rob_settles hD T hT hf g1
    have hr : r = x0 := by
      obtain ⟨q', k6, k7⟩ := front_not k4
      rw [g2] at k6
      cases k6
      rw [k5]
      linarith
    subst hr
    -- the first bound
    obtain ⟨U', u, a1⟩ : ∃ U' u, bnd env false T0 = .ok (U', u) := by
      simp only [Tr.computeLow] at h2
      obtain ⟨⟨c', u⟩, a1, _⟩ := bind_eq_ok.1 h2
      exact ⟨c', u, a1⟩
    have hv1 := bnd_value k1 (b := false) k3 a1
    obtain ⟨s1, b1, b2⟩ := bnd_not (b := true) (s := { s with z := computeNot T0.st.z }) hlow a1 hv1
    have b1 : Tr.computeLow env _ = _ := b1
    rw [b1] at h2
    simp only [Except.ok.injEq, Prod.mk.injEq] at h2
    obtain ⟨rfl, rfl⟩ := h2
    obtain ⟨V', l, a2⟩ : ∃ V' l, bnd env true U' = .ok (V', l) := by
      simp only [Tr.computeUp] at h3
      obtain ⟨⟨c', u⟩, a1, _⟩ := bind_eq_ok.1 h3
      exact ⟨c', u, a1⟩
    obtain ⟨m1, m2⟩ := bnd_keeps hD T0 k1 a1
    have hv2 := bnd_value m1 (b := true) (m2.pick.symm.trans k2) a2
    obtain ⟨s2, b3, _⟩ := bnd_not (b := false) (s := s1) (b2.trans hup) a2 hv2
    have b3 : Tr.computeUp env _ = _ := b3
    rw [b3] at h3
    simp only [Except.ok.injEq, Prod.mk.injEq] at h3
    obtain ⟨rfl, rfl⟩ := h3
    obtain ⟨T1, T2, c1, c2, _, _⟩ := bnd_swap (b := false) hD k1 a1 a2
    have c1 : Tr.computeLow env _ = _ := c1
    have c2 : Tr.computeUp env _ = _ := c2
    refine ⟨T2, ?_⟩
    unfold Monitor.run3
    simp only [g1, ok_bind, c1, c2, neg_inj.1 e2, neg_inj.1 e3]

theorem evalRob_iff {g : Globals} {m : Monitor} {T : Tr} (hm : m.formula = some T) {s e v lo up : ℚ} :
    ((m.evalRob g s e).2.2 = .ok v ∧ (m.evalRob g s e).2.1.lowerRob = lo ∧
        (m.evalRob g s e).2.1.upperRob = up) ↔
      ∃ U, Monitor.run3 ⟨g.B, m.sem, m.ip, m.data, m.params⟩
        (Monitor.prepare m.params s e T) = .ok (U, v, lo, up) := by
  unfold Monitor.evalRob
  rw [hm]
  simp only
  split
  · rename_i U r l u h
    rw [h]
    simp only [Except.ok.injEq, Prod.mk.injEq]
    exact ⟨fun ⟨h1, h2, h3⟩ => ⟨U, rfl, h1, h2, h3⟩, fun ⟨_, _, h1, h2, h3⟩ => ⟨h1, h2, h3⟩⟩
  · rename_i f h
    rw [h]
    simp

/-- C29: evaluating `not phi` succeeds exactly when evaluating `phi` does, with the negated value,
and leaves the negated bounds, swapped; for every formula, trace, time, interpolation and
semantics. -/
theorem C29_not (g : Globals) (m : Monitor) (n : ℕ) (T : Tr) (s0 : St) (s e : ℚ)
    (hm : m.formula = some T) (hT : IsStl T) (hD : WellShaped n m.data) (v lo up : ℚ) :
    ((m.evalRob g s e).2.2 = .ok v ∧ (m.evalRob g s e).2.1.lowerRob = lo ∧
        (m.evalRob g s e).2.1.upperRob = up) ↔
      (({ m with formula := some (.not s0 T) }.evalRob g s e).2.2 = .ok (-v) ∧
        ({ m with formula := some (.not s0 T) }.evalRob g s e).2.1.lowerRob = -up ∧
        ({ m with formula := some (.not s0 T) }.evalRob g s e).2.1.upperRob = -lo) := by
  rw [evalRob_iff hm, evalRob_iff (T := .not s0 T) rfl]
  exact run3_not (env := ⟨g.B, m.sem, m.ip, m.data, m.params⟩) hD (isStl_prepare hT)
    (fresh_prepare m.params T s e) rfl rfl

/-- `ev_[0,5] (x > 0 until_[0,2] y > 0)`. -/
def notF : Tr := evT 0 5 (.untl .init (above sx 0) (lit 0 2) (above sy 0))

/-- A trace that stops long before the horizon. -/
def notD : List (List ℚ) := [[0, 3, -1], [1, 2, 1], [2, 1, 4], [3, -1, 2]]

theorem notD_shaped : WellShaped 2 notD := by
  refine ⟨by decide +kernel, ?_⟩
  simp only [notD, List.pairwise_cons, List.mem_cons, List.not_mem_nil, or_false]
  simp
  norm_num

example : ((mon .LINEAR (.not .init notF) notD).evalRob .init 0 0).2.2 = .ok (-(7 / 4)) ∧
    ((mon .LINEAR (.not .init notF) notD).evalRob .init 0 0).2.1.lowerRob = -10000 ∧
    ((mon .LINEAR (.not .init notF) notD).evalRob .init 0 0).2.1.upperRob = -(7 / 4) :=
  (C29_not .init (mon .LINEAR notF notD) 2 notF .init 0 0 rfl
    ⟨⟨trivial, trivial⟩, ⟨trivial, trivial⟩⟩ notD_shaped (7 / 4) (7 / 4) 10000).1
    ⟨by decide +kernel, by decide +kernel, by decide +kernel⟩

end Props
end STLRom
