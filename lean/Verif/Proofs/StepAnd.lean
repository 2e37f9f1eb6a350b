import Verif.Proofs.Or
import Verif.Proofs.Resize

/-!
# Conjunction and disjunction of step signals are step signals
-/

namespace STLRom
open Signal

/-- All pieces are constant. -/
def Flat (l : List Sample) : Prop := ∀ p ∈ l, p.derivative = 0

/-- A list of constant pieces between `t` and `e`, times strictly increasing. -/
structure StepL (e t : ℚ) (z : List Sample) : Prop where
  flat : Flat z
  sinc : SInc z
  rng : ∀ q ∈ z, t ≤ q.time ∧ q.time ≤ e

theorem flat_valueAt {p : Sample} (h : p.derivative = 0) (t : ℚ) : p.valueAt t = p.value := by
  simp [Sample.valueAt, h]

theorem StepL.cons {e t t' v : ℚ} {z : List Sample} (h : StepL e t z) (ht : ∀ q ∈ z, t' < q.time)
    (hte : t' ≤ e) : StepL e t' (⟨t', v, 0⟩ :: z) := by
  refine ⟨?_, List.pairwise_cons.2 ⟨ht, h.sinc⟩, ?_⟩
  · intro p hp
    rcases List.mem_cons.1 hp with rfl | hp
    · rfl
    · exact h.flat p hp
  · intro p hp
    rcases List.mem_cons.1 hp with rfl | hp
    · exact ⟨le_rfl, hte⟩
    · exact ⟨(ht p hp).le, (h.rng p hp).2⟩

/-- Pushing the sample that was held back. -/
theorem StepL.pend {e t v d : ℚ} {z : List Sample} {c : Bool} (h : StepL e t z)
    (hc : c = true → ∀ q ∈ z, t < q.time) (hte : t ≤ e) (hd : d = 0) :
    StepL e t (if c then ⟨t, v, d⟩ :: z else z) := by
  subst hd
  split_ifs with h'
  · exact h.cons (hc h') hte
  · exact h

theorem StepL.push {e t t' : ℚ} {p : Sample} {z : List Sample} (h : StepL e t z) (hp : p.time = t')
    (hd : p.derivative = 0) (ht : t' < t) (hte : t ≤ e) : StepL e t' (p :: z) := by
  have := h.cons (v := p.value) (fun q hq => lt_of_lt_of_le ht (h.rng q hq).1) (ht.le.trans hte)
  rcases p with ⟨a, b, c⟩
  simp only at hp hd
  subst hp hd
  exact this

theorem StepL.mono {e t t' : ℚ} {z : List Sample} (h : StepL e t z) (ht : t' ≤ t) : StepL e t' z :=
  ⟨h.flat, h.sinc, fun q hq => ⟨ht.trans (h.rng q hq).1, (h.rng q hq).2⟩⟩

theorem segmentAndLoop_step {e : ℚ} {i : Sample} (hi : i.derivative = 0) :
    ∀ (js z : List Sample) (t : ℚ) (c : Bool) (r : List Sample × ℚ × Bool × List Sample),
      Flat js → js.Pairwise (fun p q => q.time < p.time) → (∀ j ∈ js, j.time < t) → i.time < t →
      t ≤ e → StepL e t z → (c = true → ∀ q ∈ z, t < q.time) →
      segmentAndLoop i z t c js = .ok r →
      StepL e r.2.1 r.1 ∧ (r.2.2.1 = true → ∀ q ∈ r.1, r.2.1 < q.time) ∧ i.time < r.2.1 ∧ r.2.1 ≤ e ∧
        (∃ j js', r.2.2.2 = j :: js' ∧ j.time ≤ i.time) ∧ r.2.2.2 <:+ js := by
  intro js
  induction js with
  | nil => intro z t c r _ _ _ _ _ _ _ h; simp [segmentAndLoop] at h
  | cons j js ih =>
    intro z t c r hf hp ht hit hte hz hc h
    have hj : j.derivative = 0 := hf j (by simp)
    have hf' : Flat js := fun p hp => hf p (by simp [hp])
    have hp' := (List.pairwise_cons.1 hp)
    have hjt := ht j (by simp)
    rw [segmentAndLoop] at h
    simp only [flat_valueAt hi, flat_valueAt hj] at h
    have fin : ∀ {z' : List Sample} {c' : Bool}, i.time < j.time → StepL e j.time z' →
        (c' = true → ∀ q ∈ z', j.time < q.time) → segmentAndLoop i z' j.time c' js = .ok r →
        StepL e r.2.1 r.1 ∧ (r.2.2.1 = true → ∀ q ∈ r.1, r.2.1 < q.time) ∧ i.time < r.2.1 ∧ r.2.1 ≤ e ∧
          (∃ j' js', r.2.2.2 = j' :: js' ∧ j'.time ≤ i.time) ∧ r.2.2.2 <:+ j :: js := by
      intro z' c' h1 h2 h3 h4
      obtain ⟨a1, a2, a3, a4, a5, a6⟩ := ih z' j.time c' r hf' hp'.2 hp'.1 h1 (hjt.le.trans hte) h2 h3 h4
      exact ⟨a1, a2, a3, a4, a5, a6.trans (List.suffix_cons _ _)⟩
    have hst : ∀ q ∈ z, j.time < q.time := fun q hq => lt_of_lt_of_le hjt (hz.rng q hq).1
    have skip1 := hz.mono hjt.le
    have push1 : ∀ (x : ℚ), StepL e j.time (⟨j.time, j.value, j.derivative⟩ ::
        (if c = true then (⟨t, x, i.derivative⟩ : Sample) :: z else z)) := fun x =>
      (hz.pend (v := x) hc hte hi).push rfl hj hjt hte
    by_cases h1 : i.time < j.time
    · rw [if_pos h1] at h
      by_cases h2 : i.value < j.value
      · rw [if_pos h2, if_neg (not_lt.2 h2.le)] at h
        exact fin h1 skip1 (fun _ => hst) h
      · rw [if_neg h2] at h
        by_cases h3 : i.value = j.value
        · rw [if_pos h3, if_neg (by rw [h3]; exact lt_irrefl _)] at h
          exact fin h1 skip1 (fun _ => hst) h
        · rw [if_neg h3, if_neg h2] at h
          exact fin h1 (push1 _) (by simp) h
    · rw [if_neg h1] at h
      simp only [Except.ok.injEq] at h
      subst h
      exact ⟨hz, hc, hit, hte, ⟨j, js, rfl, not_lt.1 h1⟩, List.suffix_rfl⟩

theorem segmentAndLast_step {e t : ℚ} {i j : Sample} (hi : i.derivative = 0) (hj : j.derivative = 0)
    {z r : List Sample} {c : Bool} (hz : StepL e t z) (hc : c = true → ∀ q ∈ z, t < q.time)
    (hit : i.time < t) (hte : t ≤ e) (h : segmentAndLast i z t c j = .ok r) :
    StepL e i.time r ∧ ∃ p l, r = p :: l ∧ p.time = i.time := by
  unfold segmentAndLast at h
  simp only [flat_valueAt hi, flat_valueAt hj] at h
  by_cases h2 : i.value < j.value
  · rw [if_pos h2, if_neg (not_lt.2 h2.le)] at h
    simp only [Except.ok.injEq] at h
    subst h
    exact ⟨hz.push rfl hi hit hte, _, _, rfl, rfl⟩
  · rw [if_neg h2] at h
    by_cases h3 : i.value = j.value
    · rw [if_pos h3, if_neg (by rw [h3]; exact lt_irrefl _)] at h
      simp only [Except.ok.injEq] at h
      subst h
      exact ⟨hz.push rfl hi hit hte, _, _, rfl, rfl⟩
    · rw [if_neg h3, if_neg h2] at h
      simp only [Except.ok.injEq] at h
      subst h
      exact ⟨(hz.pend hc hte hi).push rfl hj hit hte, _, _, rfl, rfl⟩

theorem segmentAnd_step {e t : ℚ} {i : Sample} (hi : i.derivative = 0) {z js : List Sample}
    {r : List Sample × List Sample} (hf : Flat js) (hp : js.Pairwise fun p q => q.time < p.time)
    (ht : ∀ j ∈ js, j.time < t) (hit : i.time < t) (hte : t ≤ e) (hz : StepL e t z)
    (h : segmentAnd z i t js = .ok r) :
    StepL e i.time r.1 ∧ (∃ p l, r.1 = p :: l ∧ p.time = i.time) ∧
      (∃ j js', r.2 = j :: js' ∧ j.time ≤ i.time) ∧ r.2 <:+ js := by
  unfold segmentAnd at h
  cases hl : segmentAndLoop i z t false js with
  | error f => simp [hl, bind, Except.bind] at h
  | ok x =>
    obtain ⟨a1, a2, a3, a4, ⟨j, js', a5, a6⟩, a7⟩ := segmentAndLoop_step hi js z t false x hf hp ht hit hte hz
      (by simp) hl
    rcases x with ⟨z', t', c', l'⟩
    simp only at a1 a2 a3 a4 a5 a7
    subst a5
    simp only [hl, bind, Except.bind] at h
    cases hs : segmentAndLast i z' t' c' j with
    | error f => simp [hs] at h
    | ok w =>
      simp only [hs, Except.ok.injEq] at h
      subst h
      have hj := hf j (a7.subset (by simp))
      obtain ⟨b1, b2⟩ := segmentAndLast_step hi hj a1 a2 a3 a4 hs
      exact ⟨b1, b2, ⟨j, js', rfl, a6⟩, a7⟩

theorem partialAnd_step {s e : ℚ} : ∀ (is z js : List Sample) (t : ℚ) (r : List Sample),
    Flat is → is.Pairwise (fun p q => q.time < p.time) → (∀ i ∈ is, i.time < t) →
    Flat js → js.Pairwise (fun p q => q.time < p.time) → (∀ j ∈ js, j.time < t) →
    s < t → t ≤ e → StepL e t z → partialAnd s z is js t = .ok r →
    StepL e s r ∧ ∃ p l, r = p :: l ∧ p.time = s := by
  intro is
  induction is with
  | nil => intro z js t r _ _ _ _ _ _ _ _ _ h; simp [partialAnd] at h
  | cons i is ih =>
    intro z js t r hfi hpi hti hfj hpj htj hst hte hz h
    have hi : i.derivative = 0 := hfi i (by simp)
    have hpi' := List.pairwise_cons.1 hpi
    rw [partialAnd] at h
    have last : ∀ {i' : Sample}, i'.derivative = 0 → i'.time = s →
        (segmentAnd z i' t js >>= fun x => Except.ok x.1) = .ok r →
        StepL e s r ∧ ∃ p l, r = p :: l ∧ p.time = s := by
      intro i' h1 h2 h3
      cases hs : segmentAnd z i' t js with
      | error f => simp [hs, bind, Except.bind] at h3
      | ok x =>
        simp only [hs, bind, Except.bind, Except.ok.injEq] at h3
        subst h3
        obtain ⟨a1, a2, _⟩ := segmentAnd_step h1 hfj hpj htj (h2 ▸ hst) hte hz hs
        rw [h2] at a1 a2
        exact ⟨a1, a2⟩
    by_cases h1 : s < i.time
    · rw [if_pos h1] at h
      cases hs : segmentAnd z i t js with
      | error f => simp [hs, bind, Except.bind] at h
      | ok x =>
        obtain ⟨a1, _, ⟨j, js', a3, a4⟩, a5⟩ := segmentAnd_step hi hfj hpj htj (hti i (by simp)) hte hz hs
        rcases x with ⟨z', l'⟩
        simp only at a1 a3 a5
        subst a3
        simp only [hs, bind, Except.bind] at h
        have hpl : (j :: js').Pairwise fun p q => q.time < p.time := hpj.sublist a5.sublist
        have hsub : (if j.time = i.time then js' else j :: js') <:+ j :: js' := by
          split_ifs
          · exact List.suffix_cons _ _
          · exact List.suffix_rfl
        refine ih z' _ i.time r (fun p hp => hfi p (by simp [hp])) hpi'.2 hpi'.1
          (fun p hp => hfj p (a5.subset (hsub.subset hp))) (hpl.sublist hsub.sublist) ?_ h1
          ((hti i (by simp)).le.trans hte) a1 h
        intro p hp
        split_ifs at hp with h2
        · exact lt_of_lt_of_le ((List.pairwise_cons.1 hpl).1 p hp) a4
        · rcases List.mem_cons.1 hp with rfl | hp
          · exact lt_of_le_of_ne a4 h2
          · exact lt_of_lt_of_le ((List.pairwise_cons.1 hpl).1 p hp) a4
    · rw [if_neg h1] at h
      by_cases h2 : i.time = s
      · rw [if_pos h2] at h
        exact last hi h2 h
      · rw [if_neg h2] at h
        exact last (i' := ⟨s, i.valueAt s, i.derivative⟩) hi rfl h

theorem simplify_step {x z : Signal} (hx : StepL x.endTime x.beginTime x.samples)
    (hh : ∃ p l, x.samples = p :: l ∧ p.time = x.beginTime) (h : simplify x = .ok z) :
    Flat z.samples ∧ SInc z.samples := by
  obtain ⟨p, l, hp, hpt⟩ := hh
  have hs := hx.sinc
  rw [hp] at hs
  have hw : WF x := by
    refine ⟨⟨by simp [hp], ?_, hx.sinc.sorted, fun q hq => (hx.rng q hq).2⟩, ?_⟩
    · intro q hq
      simp only [hp, List.head?_cons, Option.some.injEq] at hq
      rw [← hq, hpt]
    · intro q hq
      simp only [hp, List.tail_cons] at hq
      rw [← hpt]
      exact (List.pairwise_cons.1 hs).1 q hq
  obtain ⟨z', h1, _, _, _, _, _, m, hm, h2⟩ := simplify_spec' hw
  rw [h] at h1
  obtain rfl := Except.ok.inj h1
  have hfm : Flat m := fun q hq => hx.flat q (hm.subset hq)
  have hsm : SInc m := hx.sinc.sublist hm
  rcases h2 with h2 | ⟨b, hb, hbt, h2⟩
  · rw [h2]; exact ⟨hfm, hsm⟩
  · rw [h2]
    refine ⟨?_, List.pairwise_append.2 ⟨hsm, by simp, ?_⟩⟩
    · intro q hq
      rcases List.mem_append.1 hq with hq | hq
      · exact hfm q hq
      · simp only [List.mem_singleton] at hq
        rw [hq]
    · intro q hq r hr
      simp only [List.mem_singleton] at hr
      rw [hr]
      obtain ⟨m', rfl⟩ : ∃ m', m = m' ++ [b] := by
        rcases List.eq_nil_or_concat m with h | ⟨l, c, h⟩
        · simp [h] at hb
        · subst h
          simp at hb
          exact ⟨l, by simp [hb]⟩
      rcases List.mem_append.1 hq with hq | hq
      · exact ((List.pairwise_append.1 hsm).2.2 q hq b (by simp)).trans hbt
      · simp only [List.mem_singleton] at hq
        rw [hq]; exact hbt

theorem SInc.reverse {l : List Sample} (h : SInc l) : l.reverse.Pairwise fun p q => q.time < p.time :=
  List.pairwise_reverse.2 h

/-- The conjunction of two step signals on a proper interval is a step signal. -/
theorem computeAndM_step {x y z : Signal} (hx : WF0 x) (hy : WF0 y) (hfx : Flat x.samples)
    (hfy : Flat y.samples) (hsx : SInc x.samples) (hsy : SInc y.samples)
    (hlt : max x.beginTime y.beginTime < min x.endTime y.endTime) (h : computeAndM x y = .ok z) :
    Flat z.samples ∧ SInc z.samples := by
  have sk : ∀ {w : Signal}, WF0 w → Flat w.samples → SInc w.samples →
      w.beginTime < min x.endTime y.endTime →
      ∃ l, skipGuarded (min x.endTime y.endTime) w.samples.reverse = .ok l ∧ Flat l ∧
        l.Pairwise (fun p q => q.time < p.time) ∧ ∀ p ∈ l, p.time < min x.endTime y.endTime := by
    intro w hw hf hs hb
    obtain ⟨p, l, hl, hp⟩ := hw.exists_cons
    obtain ⟨l', h1, h2, h3, h4, h5⟩ := skip_spec (e := min x.endTime y.endTime) (l := w.samples.reverse)
      (List.pairwise_reverse.2 hw.sorted) ⟨p, by simp [hl], by rw [hp]; exact hb⟩
    obtain ⟨pre, h6⟩ := skip_suffix h1
    refine ⟨l', h2, fun q hq => hf q ?_, ?_, h4⟩
    · rw [← List.mem_reverse, h6]; simp [hq]
    · have := hs.reverse
      rw [h6] at this
      exact (List.pairwise_append.1 this).2.1
  obtain ⟨is, i1, i2, i3, i4⟩ := sk hx hfx hsx (lt_of_le_of_lt (le_max_left _ _) hlt)
  obtain ⟨js, j1, j2, j3, j4⟩ := sk hy hfy hsy (lt_of_le_of_lt (le_max_right _ _) hlt)
  simp only [computeAndM, fmax_eq, fmin_eq, i1, j1, bind, Except.bind] at h
  cases hp : partialAnd (max x.beginTime y.beginTime) [] is js (min x.endTime y.endTime) with
  | error f => simp [hp] at h
  | ok l =>
    simp only [hp] at h
    obtain ⟨a1, a2⟩ := partialAnd_step (e := min x.endTime y.endTime) is [] js _ l i2 i3 i4 j2 j3 j4 hlt
      le_rfl ⟨by simp [Flat], by simp [SInc], by simp⟩ hp
    exact simplify_step (x := ⟨l, _, _⟩) a1 a2 h

theorem Flat.not {x : Signal} (h : Flat x.samples) : Flat (computeNot x).samples := by
  intro p hp
  rw [computeNot_samples] at hp
  obtain ⟨q, hq, rfl⟩ := List.mem_map.1 hp
  simp [h q hq]

theorem computeOrM_step {x y z : Signal} (hx : WF0 x) (hy : WF0 y) (hfx : Flat x.samples)
    (hfy : Flat y.samples) (hsx : SInc x.samples) (hsy : SInc y.samples)
    (hlt : max x.beginTime y.beginTime < min x.endTime y.endTime) (h : computeOrM x y = .ok z) :
    Flat z.samples ∧ SInc z.samples := by
  have hn : ∀ {w : Signal}, SInc w.samples → SInc (computeNot w).samples := by
    intro w hw
    rw [computeNot_samples]
    exact List.pairwise_map.2 (by simpa [SInc] using hw)
  have e := computeAndM_not x y
  rw [h] at e
  obtain ⟨a, b⟩ := computeAndM_step hx.not hy.not hfx.not hfy.not (hn hsx) (hn hsy) hlt e
  have a' := Flat.not a
  have b' := hn b
  rw [computeNot_computeNot] at a' b'
  exact ⟨a', b'⟩

end STLRom
