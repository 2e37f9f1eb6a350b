import Verif.Proofs.StepAnd
import Mathlib.Data.List.Chain

/-!
# Conjunction of step signals of which some have several samples at one time
-/

namespace STLRom
open Signal

/-- Constant pieces between `t` and `e`, with the values of `G` after `s`; times may repeat. -/
structure GStep (G : ℚ → ℚ) (s e t : ℚ) (z : List Sample) : Prop where
  flat : Flat z
  sorted : Sorted z
  rng : ∀ q ∈ z, t ≤ q.time ∧ q.time < e
  val : ∀ q ∈ z, s < q.time → q.value = G q.time

theorem GStep.cons {G : ℚ → ℚ} {s e t : ℚ} {p : Sample} {z : List Sample} (h : GStep G s e t z)
    (hp : p.derivative = 0) (ht : p.time ≤ t) (he : p.time < e)
    (hv : s < p.time → p.value = G p.time) : GStep G s e p.time (p :: z) := by
  refine ⟨?_, List.pairwise_cons.2 ⟨fun q hq => ht.trans (h.rng q hq).1, h.sorted⟩, ?_, ?_⟩
  · intro q hq
    rcases List.mem_cons.1 hq with rfl | hq
    · exact hp
    · exact h.flat q hq
  · intro q hq
    rcases List.mem_cons.1 hq with rfl | hq
    · exact ⟨le_rfl, he⟩
    · exact ⟨ht.trans (h.rng q hq).1, (h.rng q hq).2⟩
  · intro q hq
    rcases List.mem_cons.1 hq with rfl | hq
    · exact hv
    · exact h.val q hq

theorem GStep.mono {G : ℚ → ℚ} {s e t t' : ℚ} {z : List Sample} (h : GStep G s e t z) (ht : t' ≤ t) :
    GStep G s e t' z :=
  ⟨h.flat, h.sorted, fun q hq => ⟨ht.trans (h.rng q hq).1, (h.rng q hq).2⟩, h.val⟩

/-- Pushing the sample that was held back. -/
theorem GStep.pend {G : ℚ → ℚ} {s e t v d : ℚ} {z : List Sample} {c : Bool} (h : GStep G s e t z)
    (hc : c = true → t < e ∧ (s < t → v = G t)) (hd : d = 0) :
    GStep G s e t (if c then ⟨t, v, d⟩ :: z else z) := by
  subst hd
  split_ifs with h'
  · exact h.cons (p := ⟨t, v, 0⟩) rfl le_rfl (hc h').1 (hc h').2
  · exact h

theorem segmentAndLoop_g {G : ℚ → ℚ} {s e : ℚ} {i : Sample} (hi : i.derivative = 0) :
    ∀ (js z : List Sample) (t : ℚ) (c : Bool) (r : List Sample × ℚ × Bool × List Sample),
      Flat js → js.Pairwise (fun p q => q.time ≤ p.time) → (∀ j ∈ js, j.time ≤ t ∧ j.time < e) →
      i.time ≤ t → GStep G s e t z → (c = true → t < e ∧ (s < t → i.value = G t)) →
      (∀ j ∈ js, i.time < j.time → s < j.time → G j.time = min i.value j.value) →
      segmentAndLoop i z t c js = .ok r →
      GStep G s e r.2.1 r.1 ∧ (r.2.2.1 = true → r.2.1 < e ∧ (s < r.2.1 → i.value = G r.2.1)) ∧
        i.time ≤ r.2.1 ∧ (i.time < t → i.time < r.2.1) ∧
        r.2.2.2 = js.dropWhile (fun j => decide (i.time < j.time)) ∧
        ∃ j js', r.2.2.2 = j :: js' ∧ j.time ≤ i.time := by
  intro js
  induction js with
  | nil => intro z t c r _ _ _ _ _ _ _ h; simp [segmentAndLoop] at h
  | cons j js ih =>
    intro z t c r hf hp ht hit hz hc hG h
    have hj : j.derivative = 0 := hf j (by simp)
    have hf' : Flat js := fun p hp => hf p (by simp [hp])
    have hp' := (List.pairwise_cons.1 hp)
    have hjt := ht j (by simp)
    rw [segmentAndLoop] at h
    simp only [flat_valueAt hi, flat_valueAt hj] at h
    by_cases h1 : i.time < j.time
    · have fin : ∀ {z' : List Sample} {c' : Bool}, GStep G s e j.time z' →
          (c' = true → j.time < e ∧ (s < j.time → i.value = G j.time)) →
          segmentAndLoop i z' j.time c' js = .ok r →
          GStep G s e r.2.1 r.1 ∧ (r.2.2.1 = true → r.2.1 < e ∧ (s < r.2.1 → i.value = G r.2.1)) ∧
            i.time ≤ r.2.1 ∧ (i.time < t → i.time < r.2.1) ∧
            r.2.2.2 = (j :: js).dropWhile (fun j => decide (i.time < j.time)) ∧
            ∃ j js', r.2.2.2 = j :: js' ∧ j.time ≤ i.time := by
        intro z' c' h2 h3 h4
        obtain ⟨a1, a2, a3, a4, a5, a6⟩ := ih z' j.time c' r hf' hp'.2
          (fun q hq => ⟨hp'.1 q hq, (hp'.1 q hq).trans_lt hjt.2⟩) h1.le h2 h3
          (fun q hq => hG q (by simp [hq])) h4
        exact ⟨a1, a2, a3, fun _ => a4 h1, by rw [a5, List.dropWhile_cons_of_pos (by simpa using h1)], a6⟩
      have hGj := hG j (by simp) h1
      rw [if_pos h1] at h
      have skip1 := hz.mono hjt.1
      by_cases h2 : i.value < j.value
      · rw [if_pos h2, if_neg (not_lt.2 h2.le)] at h
        exact fin skip1 (fun _ => ⟨hjt.2, fun hs => by rw [hGj hs, min_eq_left h2.le]⟩) h
      · rw [if_neg h2] at h
        by_cases h3 : i.value = j.value
        · rw [if_pos h3, if_neg (by rw [h3]; exact lt_irrefl _)] at h
          exact fin skip1 (fun _ => ⟨hjt.2, fun hs => by rw [hGj hs, min_eq_left h3.le]⟩) h
        · rw [if_neg h3, if_neg h2] at h
          refine fin ?_ (by simp) h
          exact (hz.pend hc hi).cons (p := ⟨j.time, j.value, j.derivative⟩) hj hjt.1 hjt.2
            (fun hs => by show j.value = G j.time; rw [hGj hs, min_eq_right (not_lt.1 h2)])
    · rw [if_neg h1] at h
      simp only [Except.ok.injEq] at h
      subst h
      exact ⟨hz, hc, hit, id, by rw [List.dropWhile_cons_of_neg (by simpa using h1)], j, js, rfl,
        not_lt.1 h1⟩

theorem segmentAndLast_g {G : ℚ → ℚ} {s e t : ℚ} {i j : Sample} (hi : i.derivative = 0)
    (hj : j.derivative = 0) {z r : List Sample} {c : Bool} (hz : GStep G s e t z)
    (hc : c = true → t < e ∧ (s < t → i.value = G t)) (hit : i.time ≤ t) (hie : i.time < e)
    (hG : s < i.time → G i.time = min i.value j.value)
    (h : segmentAndLast i z t c j = .ok r) :
    GStep G s e i.time r ∧ ∃ p l, r = p :: l ∧ p.time = i.time ∧ (i.time < t → ∀ q ∈ l, i.time < q.time) := by
  unfold segmentAndLast at h
  simp only [flat_valueAt hi, flat_valueAt hj] at h
  have hpd : GStep G s e t (if c = true then (⟨t, i.value, i.derivative⟩ : Sample) :: z else z) :=
    hz.pend hc hi
  by_cases h2 : i.value < j.value
  · rw [if_pos h2, if_neg (not_lt.2 h2.le)] at h
    simp only [Except.ok.injEq] at h
    subst h
    exact ⟨hz.cons hi hit hie fun hs => by rw [hG hs, min_eq_left h2.le], _, _, rfl, rfl,
      fun h' q hq => h'.trans_le (hz.rng q hq).1⟩
  · rw [if_neg h2] at h
    by_cases h3 : i.value = j.value
    · rw [if_pos h3, if_neg (by rw [h3]; exact lt_irrefl _)] at h
      simp only [Except.ok.injEq] at h
      subst h
      exact ⟨hz.cons hi hit hie fun hs => by rw [hG hs, min_eq_left h3.le], _, _, rfl, rfl,
        fun h' q hq => h'.trans_le (hz.rng q hq).1⟩
    · rw [if_neg h3, if_neg h2] at h
      simp only [Except.ok.injEq] at h
      subst h
      exact ⟨hpd.cons (p := ⟨i.time, j.value, j.derivative⟩) hj hit hie fun hs => by
          show j.value = G i.time
          rw [hG hs, min_eq_right (not_lt.1 h2)], _, _, rfl, rfl,
        fun h' q hq => h'.trans_le (hpd.rng q hq).1⟩

/-- What the run of a conjunction over the outer samples `is` and the inner samples `js`, latest
first, needs in order to write only values of `G` after `s`. -/
def OkRun (G : ℚ → ℚ) (s : ℚ) : List Sample → List Sample → Prop
  | [], _ => True
  | i :: is, js =>
    (∀ j ∈ js, i.time < j.time → s < j.time → G j.time = min i.value j.value) ∧
    (s < i.time → ∀ j r, js.dropWhile (fun j => decide (i.time < j.time)) = j :: r →
      G i.time = min i.value j.value ∧ OkRun G s is (if j.time = i.time then r else j :: r))

theorem segmentAnd_g {G : ℚ → ℚ} {s e t : ℚ} {i : Sample} (hi : i.derivative = 0)
    {z js : List Sample} {r : List Sample × List Sample} (hf : Flat js)
    (hp : js.Pairwise fun p q => q.time ≤ p.time) (ht : ∀ j ∈ js, j.time ≤ t ∧ j.time < e)
    (hit : i.time ≤ t) (hie : i.time < e) (hz : GStep G s e t z)
    (hA : ∀ j ∈ js, i.time < j.time → s < j.time → G j.time = min i.value j.value)
    (hB : s < i.time → ∀ j r, js.dropWhile (fun j => decide (i.time < j.time)) = j :: r →
      G i.time = min i.value j.value)
    (h : segmentAnd z i t js = .ok r) :
    GStep G s e i.time r.1 ∧
      (∃ p l, r.1 = p :: l ∧ p.time = i.time ∧ (i.time < t → ∀ q ∈ l, i.time < q.time)) ∧
      r.2 = js.dropWhile (fun j => decide (i.time < j.time)) ∧
      ∃ j js', r.2 = j :: js' ∧ j.time ≤ i.time := by
  unfold segmentAnd at h
  cases hl : segmentAndLoop i z t false js with
  | error f => simp [hl, bind, Except.bind] at h
  | ok x =>
    obtain ⟨a1, a2, a3, a4, a5, j, js', a6, a7⟩ := segmentAndLoop_g hi js z t false x hf hp ht hit hz
      (by simp) hA hl
    rcases x with ⟨z', t', c', l'⟩
    simp only at a1 a2 a3 a4 a5 a6
    subst a6
    simp only [hl, bind, Except.bind] at h
    cases hs : segmentAndLast i z' t' c' j with
    | error f => simp [hs] at h
    | ok w =>
      simp only [hs, Except.ok.injEq] at h
      subst h
      have hj := hf j ((List.dropWhile_sublist _).subset (a5 ▸ List.mem_cons_self))
      obtain ⟨b1, p, l, b2, b3, b4⟩ := segmentAndLast_g hi hj a1 a2 a3 hie
        (fun h' => hB h' j js' a5.symm) hs
      exact ⟨b1, ⟨p, l, b2, b3, fun h' => b4 (a4 h')⟩, a5, j, js', rfl, a7⟩

theorem partialAnd_g {G : ℚ → ℚ} {s e : ℚ} : ∀ (is z js : List Sample) (t : ℚ) (r : List Sample),
    Flat is → is.Pairwise (fun p q => q.time ≤ p.time) → (∀ i ∈ is, i.time ≤ t ∧ i.time < e) →
    Flat js → js.Pairwise (fun p q => q.time ≤ p.time) → (∀ j ∈ js, j.time ≤ t ∧ j.time < e) →
    s < t → s < e → GStep G s e t z → OkRun G s is js → partialAnd s z is js t = .ok r →
    GStep G s e s r ∧ ∃ p l, r = p :: l ∧ p.time = s ∧ ∀ q ∈ l, s < q.time := by
  intro is
  induction is with
  | nil => intro z js t r _ _ _ _ _ _ _ _ _ _ h; simp [partialAnd] at h
  | cons i is ih =>
    intro z js t r hfi hpi hti hfj hpj htj hst hse hz hR h
    have hi : i.derivative = 0 := hfi i (by simp)
    have hpi' := List.pairwise_cons.1 hpi
    obtain ⟨hA, hB⟩ := hR
    rw [partialAnd] at h
    have last : ∀ {i' : Sample}, i'.derivative = 0 → i'.time = s → i'.value = i.value → i.time ≤ s →
        (segmentAnd z i' t js >>= fun x => Except.ok x.1) = .ok r →
        GStep G s e s r ∧ ∃ p l, r = p :: l ∧ p.time = s ∧ ∀ q ∈ l, s < q.time := by
      intro i' h1 h2 h2' h2'' h3
      cases hs : segmentAnd z i' t js with
      | error f => simp [hs, bind, Except.bind] at h3
      | ok x =>
        simp only [hs, bind, Except.bind, Except.ok.injEq] at h3
        subst h3
        obtain ⟨a1, ⟨p, l, a2, a3, a4⟩, _⟩ := segmentAnd_g (s := s) (e := e) (G := G) h1 hfj hpj htj
          (by rw [h2]; exact hst.le) (by rw [h2]; exact hse) hz
          (fun j hj _ h5 => by rw [h2']; exact hA j hj (h2''.trans_lt h5) h5)
          (fun h5 => absurd h5 (by rw [h2]; exact lt_irrefl _)) hs
        rw [h2] at a1 a3 a4
        exact ⟨a1, p, l, a2, a3, a4 hst⟩
    by_cases h1 : s < i.time
    · rw [if_pos h1] at h
      cases hs : segmentAnd z i t js with
      | error f => simp [hs, bind, Except.bind] at h
      | ok x =>
        obtain ⟨a1, _, a5, j, js', a3, a4⟩ := segmentAnd_g (s := s) (e := e) (G := G) hi hfj hpj htj
          (hti i (by simp)).1 (hti i (by simp)).2 hz hA (fun h' j r h'' => (hB h' j r h'').1) hs
        rcases x with ⟨z', l'⟩
        simp only at a1 a3 a5
        subst a3
        simp only [hs, bind, Except.bind] at h
        have hsub0 : (j :: js').Sublist js := a5 ▸ List.dropWhile_sublist _
        have hpl : (j :: js').Pairwise fun p q => q.time ≤ p.time := hpj.sublist hsub0
        have hsub : (if j.time = i.time then js' else j :: js') <:+ j :: js' := by
          split_ifs
          · exact List.suffix_cons _ _
          · exact List.suffix_rfl
        refine ih z' _ i.time r (fun p hp => hfi p (by simp [hp])) hpi'.2
          (fun p hp => ⟨hpi'.1 p hp, (hti p (by simp [hp])).2⟩)
          (fun p hp => hfj p (hsub0.subset (hsub.subset hp))) (hpl.sublist hsub.sublist) ?_ h1 hse
          a1 (hB h1 j js' a5.symm).2 h
        intro p hp
        have hp' := hsub.subset hp
        refine ⟨?_, (htj p (hsub0.subset hp')).2⟩
        rcases List.mem_cons.1 hp' with rfl | hp'
        · exact a4
        · exact ((List.pairwise_cons.1 hpl).1 p hp').trans a4
    · rw [if_neg h1] at h
      by_cases h2 : i.time = s
      · rw [if_pos h2] at h
        exact last hi h2 rfl h2.le h
      · rw [if_neg h2] at h
        exact last (i' := ⟨s, i.valueAt s, i.derivative⟩) hi rfl (flat_valueAt hi s) (not_lt.1 h1) h

/-! ## `simplify` removes repeated times -/

theorem simplifyLoop_diff (bt : ℚ) :
    ∀ (pend done : List Sample) (n : ℕ) (m : List Sample), pend.length ≤ n →
      (∃ p l, done = p :: l ∧ p.time = bt) → (∀ q ∈ pend, q.time ≠ bt) →
      Flat (done ++ pend) → done.IsChain (fun p q => p.value ≠ q.value) →
      simplifyLoop bt n (pend ++ done) = .ok m → m.IsChain (fun p q => p.value ≠ q.value) := by
  intro pend
  induction pend with
  | nil =>
    intro done n m _ hd _ _ hc h
    obtain ⟨p, l, rfl, hp⟩ := hd
    cases n <;> simp [simplifyLoop, hp] at h <;> exact h ▸ hc
  | cons f pend ih =>
    intro done n m hn hd hne hf hc h
    obtain ⟨n, rfl⟩ : ∃ m, n = m + 1 := ⟨n - 1, by simp at hn; omega⟩
    obtain ⟨p, l, rfl, hp⟩ := hd
    have hft : f.time ≠ bt := hne f (by simp)
    rw [List.cons_append, simplifyLoop, if_neg hft] at h
    obtain ⟨b, hb⟩ : ∃ b, (p :: l).getLast? = some b := by
      rw [List.getLast?_eq_some_getLast (by simp)]; exact ⟨_, rfl⟩
    have hlast : (f :: (pend ++ p :: l)).getLast? = some b := by
      rw [← List.cons_append, List.getLast?_append, hb]; rfl
    rw [hlast] at h
    simp only at h
    have hb0 : b.derivative = 0 := hf b (List.mem_append_left _ (List.mem_of_getLast? hb))
    have hf0 : f.derivative = 0 := hf f (by simp)
    rw [flat_valueAt hb0, hb0, hf0] at h
    split_ifs at h with hcond
    · refine ih (p :: l ++ [f]) n m (by simpa using hn) ⟨p, l ++ [f], by simp, hp⟩
        (fun q hq => hne q (by simp [hq])) (by simpa using hf) ?_ (by simpa using h)
      refine List.isChain_append.2 ⟨hc, by simp, ?_⟩
      intro x hx y hy
      rw [Option.mem_def, hb] at hx
      simp only [List.head?_cons, Option.mem_def, Option.some.injEq] at hx hy
      subst hx hy
      simpa using hcond
    · exact ih (p :: l) n m (by simpa using hn) ⟨p, l, rfl, hp⟩ (fun q hq => hne q (by simp [hq]))
        (fun q hq => hf q (by
          rcases List.mem_append.1 hq with hq | hq
          · exact List.mem_append_left _ hq
          · exact List.mem_append_right _ (by simp [hq]))) hc h

theorem sinc_of_diff : ∀ {l : List Sample}, Sorted l → l.IsChain (fun p q => p.value ≠ q.value) →
    (∀ p ∈ l, ∀ q ∈ l, p.time = q.time → p.value = q.value) → SInc l
  | [], _, _, _ => List.Pairwise.nil
  | [p], _, _, _ => by simp [SInc]
  | p :: q :: r, hs, hc, hv => by
    have hs' := List.pairwise_cons.1 hs
    rw [List.isChain_cons_cons] at hc
    have ih := sinc_of_diff hs'.2 hc.2 fun a ha b hb => hv a (by simp [ha]) b (by simp [hb])
    have hpq : p.time < q.time := lt_of_le_of_ne (hs'.1 q (by simp)) fun h =>
      hc.1 (hv p (by simp) q (by simp) h)
    refine List.pairwise_cons.2 ⟨fun a ha => ?_, ih⟩
    rcases List.mem_cons.1 ha with rfl | ha
    · exact hpq
    · exact hpq.trans ((List.pairwise_cons.1 ih).1 a ha)

theorem simplify_g {G : ℚ → ℚ} {x z : Signal} (hx : GStep G x.beginTime x.endTime x.beginTime x.samples)
    (hh : ∃ p l, x.samples = p :: l ∧ p.time = x.beginTime ∧ ∀ q ∈ l, x.beginTime < q.time)
    (h : simplify x = .ok z) : Flat z.samples ∧ SInc z.samples := by
  obtain ⟨p, l, hp, hpt, hlt⟩ := hh
  have hs := hx.sorted
  have hw : WF x := by
    refine ⟨⟨by simp [hp], ?_, hx.sorted, fun q hq => (hx.rng q hq).2.le⟩, ?_⟩
    · intro q hq
      simp only [hp, List.head?_cons, Option.some.injEq] at hq
      rw [← hq, hpt]
    · intro q hq
      simp only [hp, List.tail_cons] at hq
      exact hlt q hq
  obtain ⟨m, h1, h2, h3, h4, h5⟩ := simplifyLoop_spec x.beginTime l [p] (l.length + 1) (by simp)
    ⟨p, [], rfl, hpt⟩ (fun q hq => (hlt q hq).ne')
    (by rw [List.singleton_append, ← hp]; exact hx.sorted)
  simp only [List.singleton_append, ← hp] at h2 h3
  have hd := simplifyLoop_diff x.beginTime l [p] (l.length + 1) m (by simp) ⟨p, [], rfl, hpt⟩
    (fun q hq => (hlt q hq).ne') (by rw [List.singleton_append, ← hp]; exact hx.flat)
    (by simp) h1
  have hfm : Flat m := fun q hq => hx.flat q (h3.subset hq)
  have hsm0 : Sorted m := hx.sorted.sublist h3
  have hsm : SInc m := by
    refine sinc_of_diff hsm0 hd fun a ha b hb hab => ?_
    have ha' := h3.subset ha
    have hb' := h3.subset hb
    by_cases hlt' : x.beginTime < a.time
    · rw [hx.val a ha' hlt', hx.val b hb' (hab ▸ hlt'), hab]
    · have key : ∀ c ∈ x.samples, ¬ x.beginTime < c.time → c = p := by
        intro c hc hc'
        rw [hp] at hc
        rcases List.mem_cons.1 hc with rfl | hc
        · rfl
        · exact absurd (hlt c hc) hc'
      rw [key a ha' hlt', key b hb' (hab ▸ hlt')]
  obtain ⟨b, hb⟩ : ∃ b, m.getLast? = some b := by
    rw [List.getLast?_eq_some_getLast h5]; exact ⟨_, rfl⟩
  simp only [simplify, hp, h1, bind, Except.bind, hb] at h
  split_ifs at h with hbe
  · simp only [Except.ok.injEq] at h
    subst h
    refine ⟨?_, List.pairwise_append.2 ⟨hsm, by simp, ?_⟩⟩
    · intro q hq
      rcases List.mem_append.1 hq with hq | hq
      · exact hfm q hq
      · simp only [List.mem_singleton] at hq
        rw [hq]
    · intro q hq r hr
      simp only [List.mem_singleton] at hr
      rw [hr]
      exact (hx.rng q (h3.subset hq)).2
  · simp only [Except.ok.injEq] at h
    subst h
    exact ⟨hfm, hsm⟩

theorem WF0.run {w : Signal} {e : ℚ} (hw : WF0 w) (hf : Flat w.samples) (hb : w.beginTime < e) :
    ∃ l pre, skipGuarded e w.samples.reverse = .ok l ∧ skip e w.samples.reverse = .ok l ∧ Flat l ∧
      l.Pairwise (fun p q => q.time ≤ p.time) ∧ (∀ p ∈ l, p.time < e) ∧
      w.samples.reverse = pre ++ l ∧ ∀ p ∈ pre, e ≤ p.time := by
  obtain ⟨p, l, hl, hp⟩ := hw.exists_cons
  have hrs : w.samples.reverse.Pairwise (fun p q => q.time ≤ p.time) := List.pairwise_reverse.2 hw.sorted
  obtain ⟨l', h1, h2, h3, h4, h5⟩ := skip_spec (e := e) (l := w.samples.reverse)
    hrs ⟨p, by simp [hl], by rw [hp]; exact hb⟩
  obtain ⟨pre, h6⟩ := skip_suffix h1
  refine ⟨l', pre, h2, h1, fun q hq => hf q ?_, ?_, h4, h6, ?_⟩
  · rw [← List.mem_reverse, h6]; simp [hq]
  · rw [h6] at hrs
    exact (List.pairwise_append.1 hrs).2.1
  · clear h2 h3 h4 h5 hrs
    generalize w.samples.reverse = L at h1 h6
    revert h1 h6 pre
    induction L with
    | nil => intro pre h; simp [skip] at h
    | cons a L ih =>
      intro pre h h6
      rw [skip] at h
      split_ifs at h with ha
      · cases pre with
        | nil => simp
        | cons c pre =>
          simp only [List.cons_append, List.cons.injEq] at h6
          intro q hq
          rcases List.mem_cons.1 hq with rfl | hq
          · rw [← h6.1]; exact ha
          · exact ih pre h h6.2 q hq
      · simp only [Except.ok.injEq] at h
        rw [← h] at h6
        have : pre = [] := by
          have := congrArg List.length h6
          simp at this
          exact this
        simp [this]

/-- The conjunction of two step signals, given that its run is fine. -/
theorem computeAnd_g {G : ℚ → ℚ} {x y z : Signal} (hx : WF0 x) (hy : WF0 y) (hfx : Flat x.samples)
    (hfy : Flat y.samples)
    (hlt : max x.beginTime y.beginTime < min x.endTime y.endTime)
    (hR : ∀ is js prei prej, x.samples.reverse = prei ++ is → y.samples.reverse = prej ++ js →
      (∀ p ∈ prei, min x.endTime y.endTime ≤ p.time) → (∀ p ∈ prej, min x.endTime y.endTime ≤ p.time) →
      (∀ p ∈ is, p.time < min x.endTime y.endTime) → (∀ p ∈ js, p.time < min x.endTime y.endTime) →
      OkRun G (max x.beginTime y.beginTime) is js) (h : computeAnd x y = .ok z) :
    Flat z.samples ∧ SInc z.samples := by
  obtain ⟨is, prei, i1, i1', i2, i3, i4, i5, i6⟩ := hx.run hfx (lt_of_le_of_lt (le_max_left _ _) hlt)
  obtain ⟨js, prej, j1, j1', j2, j3, j4, j5, j6⟩ := hy.run hfy (lt_of_le_of_lt (le_max_right _ _) hlt)
  simp only [computeAnd, fmax_eq, fmin_eq, i1', j1', bind, Except.bind] at h
  cases hp : partialAnd (max x.beginTime y.beginTime) [] is js (min x.endTime y.endTime) with
  | error f => simp [hp] at h
  | ok l =>
    simp only [hp] at h
    obtain ⟨a1, a2⟩ := partialAnd_g (e := min x.endTime y.endTime) is [] js _ l i2 i3
      (fun p hp => ⟨(i4 p hp).le, i4 p hp⟩) j2 j3 (fun p hp => ⟨(j4 p hp).le, j4 p hp⟩) hlt hlt
      ⟨by simp [Flat], by simp [Sorted], by simp, by simp⟩
      (hR is js prei prej i5 j5 i6 j6 i4 j4) hp
    exact simplify_g (x := ⟨l, _, _⟩) a1 a2 h

/-- A run is fine if times repeat at `T0` only, where the result has the inner signal's value. -/
theorem okRun_of {G X Y : ℚ → ℚ} {s T0 : ℚ} : ∀ (is js : List Sample) (t : ℚ), Flat is → Flat js →
    is.Pairwise (fun p q => q.time < p.time ∨ q.time = T0 ∧ p.time = T0) →
    (∀ i ∈ is, i.time < t ∨ i.time = T0 ∧ t = T0) →
    js.Pairwise (fun p q => q.time ≤ p.time) →
    js.Pairwise (fun p q => q.time < p.time ∨ p.time ≤ s ∨ p.time = T0) →
    (∀ j ∈ js, j.time < t ∨ j.time ≤ s ∨ j.time = T0 ∧ t = T0) →
    (∀ j ∈ js, s < j.time → j.value = Y j.time) →
    (∀ T, s < T → T < t → valR is (pl T) = some (X T)) →
    (∀ T, s < T → T < t → valR js (pl T) = some (Y T)) →
    (∀ T, s < T → T < t → G T = min (X T) (Y T)) →
    (∀ i ∈ is, i.time = T0 → G T0 = min i.value (Y T0)) →
    (∀ v, valR is (mi T0) = some v → T0 ≤ t → G T0 = min v (Y T0)) →
    is.countP (fun p => p.time = T0) ≤ js.countP (fun p => p.time = T0) →
    OkRun G s is js
  | [], _, _ => fun _ _ _ _ _ _ _ _ _ _ _ _ _ _ => trivial
  | i :: is, js, t => by
    intro hfi hfj hi hit hj hjs hjt hvc hX hY hG h0 h1 hcnt
    have hid : i.derivative = 0 := hfi i (by simp)
    have hi' := List.pairwise_cons.1 hi
    have hXi : ∀ T, s < T → i.time ≤ T → T < t → X T = i.value := by
      intro T a b c
      have := hX T a c
      rw [valR_cons_of_le (by simpa using b)] at this
      simp only [pl_time, flat_valueAt hid, Option.some.injEq] at this
      exact this.symm
    refine ⟨?_, ?_⟩
    · intro j hj' h2 h3
      rw [hvc j hj' h3]
      rcases hjt j hj' with h4 | h4 | ⟨h4, h5⟩
      · rw [hG _ h3 h4, hXi _ h3 h2.le h4]
      · exact absurd h3 (not_lt.2 h4)
      · rw [h4]
        refine h1 _ ?_ h5.ge
        rw [valR_cons_of_le (by rw [pl_le_mi, ← h4]; exact h2), flat_valueAt hid]
    · intro h2 j r hd
      have hsuf : js = js.takeWhile (fun j => decide (i.time < j.time)) ++ j :: r := by
        rw [← hd, List.takeWhile_append_dropWhile]
      have hpre : ∀ p ∈ js.takeWhile (fun j => decide (i.time < j.time)), i.time < p.time := by
        intro p hp
        have := List.all_takeWhile (p := fun j : Sample => decide (i.time < j.time)) (l := js)
        rw [List.all_eq_true] at this
        simpa using this p hp
      set pre := js.takeWhile (fun j => decide (i.time < j.time)) with hpredef
      have hji : j.time ≤ i.time := by
        have := List.head?_dropWhile_not (p := fun j : Sample => decide (i.time < j.time)) (l := js)
        rw [hd] at this
        simpa using this
      have hjm : j ∈ js := by rw [hsuf]; simp
      have hjd : j.derivative = 0 := hfj j hjm
      have hrj : ∀ p ∈ r, p.time ≤ j.time := by
        rw [hsuf] at hj
        exact (List.pairwise_cons.1 (List.pairwise_append.1 hj).2.1).1
      have hcount : ∀ T, T ≤ i.time → js.countP (fun p => p.time = T) =
          (j :: r).countP (fun p => p.time = T) := by
        intro T hT
        conv_lhs => rw [hsuf]
        rw [List.countP_append]
        have : pre.countP (fun p => p.time = T) = 0 := by
          rw [List.countP_eq_zero]
          intro p hp
          have := hpre p hp
          simp only [decide_eq_true_eq]
          intro h
          linarith
        omega
      have hjT0 : i.time = T0 → j.time = T0 := by
        intro h3
        have h4 := hcount T0 h3.ge
        rw [List.countP_cons_of_pos (by simpa using h3), h4] at hcnt
        have : 0 < (j :: r).countP (fun p => p.time = T0) := by omega
        obtain ⟨p, hp, hp'⟩ := List.countP_pos_iff.1 this
        have hp' : p.time = T0 := by simpa using hp'
        rcases List.mem_cons.1 hp with rfl | hp
        · exact hp'
        · exact le_antisymm (hji.trans h3.le) (hp' ▸ hrj p hp)
      refine ⟨?_, ?_⟩
      · by_cases h3 : i.time = T0
        · have h4 := hjT0 h3
          rw [h3, h0 i (by simp) h3, hvc j hjm (by rw [h4, ← h3]; exact h2), h4]
        · have h4 : i.time < t := (hit i (by simp)).resolve_right fun h => h3 h.1
          rw [hG _ h2 h4, hXi _ h2 le_rfl h4]
          have := hY _ h2 h4
          rw [hsuf, valR_prefix (fun p hp => by simpa using hpre p hp),
            valR_cons_of_le (by simpa using hji)] at this
          simp only [pl_time, flat_valueAt hjd, Option.some.injEq] at this
          rw [this]
      · set js' := if j.time = i.time then r else j :: r with hjs'
        have hsub : js'.Sublist (j :: r) := by
          rw [hjs']
          split_ifs
          · exact List.sublist_cons_self _ _
          · exact List.Sublist.refl _
        have hsub' : js'.Sublist js := by
          refine hsub.trans ?_
          conv_rhs => rw [hsuf]
          exact List.sublist_append_right _ _
        have hle : ∀ p ∈ js', p.time < i.time ∨ p.time ≤ s ∨ p.time = T0 ∧ i.time = T0 := by
          intro p hp
          by_cases h3 : j.time = i.time
          · rw [hjs', if_pos h3] at hp
            have h4 := hjs
            rw [hsuf] at h4
            rcases (List.pairwise_cons.1 (List.pairwise_append.1 h4).2.1).1 p hp with h5 | h5 | h5
            · exact Or.inl (h3 ▸ h5)
            · exact absurd h2 (not_lt.2 (h3 ▸ h5))
            · rcases (hrj p hp).lt_or_eq with h6 | h6
              · exact Or.inl (h3 ▸ h6)
              · exact Or.inr (Or.inr ⟨h6.trans h5, h3 ▸ h5⟩)
          · rw [hjs', if_neg h3] at hp
            have h4 := lt_of_le_of_ne hji h3
            rcases List.mem_cons.1 hp with rfl | hp
            · exact Or.inl h4
            · exact Or.inl ((hrj p hp).trans_lt h4)
        have hti : i.time ≤ t := by
          rcases hit i (by simp) with h | h
          · exact h.le
          · rw [h.1, h.2]
        refine okRun_of is js' i.time (fun p hp => hfi p (by simp [hp]))
          (fun p hp => hfj p (hsub'.subset hp)) hi'.2 (fun p hp => hi'.1 p hp)
          (hj.sublist hsub') (hjs.sublist hsub') hle (fun p hp => hvc p (hsub'.subset hp)) ?_ ?_
          (fun T a b => hG T a (b.trans_le hti)) (fun p hp => h0 p (by simp [hp])) ?_ ?_
        · intro T a b
          rw [← hX T a (b.trans_le hti), valR_cons_of_lt (by simpa using b)]
        · intro T a b
          rw [← hY T a (b.trans_le hti), hsuf, valR_prefix (fun p hp => by simpa using b.trans (hpre p hp)),
            hjs']
          split_ifs with h3
          · rw [valR_cons_of_lt (by rw [h3]; simpa using b)]
          · rfl
        · intro v hv hT
          refine h1 v ?_ (hT.trans hti)
          rw [valR_cons_of_lt (by simpa using hT)]
          exact hv
        · by_cases h3 : i.time = T0
          · have h4 := hjT0 h3
            have h5 := hcount T0 h3.ge
            rw [h5, List.countP_cons_of_pos (by simpa using h3),
              List.countP_cons_of_pos (by simpa using h4)] at hcnt
            rw [hjs', if_pos (h4.trans h3.symm)]
            omega
          · rcases lt_or_gt_of_ne h3 with h4 | h4
            · have : is.countP (fun p => p.time = T0) = 0 := by
                rw [List.countP_eq_zero]
                intro p hp
                simp only [decide_eq_true_eq]
                rcases hi'.1 p hp with h5 | h5
                · intro h; linarith
                · exact absurd h5.2 h3
              omega
            · have h5 := hcount T0 h4.le
              rw [List.countP_cons_of_neg (by simpa using h3), h5] at hcnt
              rw [hjs']
              split_ifs with h6
              · rwa [List.countP_cons_of_neg (by rw [h6]; simpa using h3)] at hcnt
              · exact hcnt

/-- The conjunction of two step signals on the same domain, where samples repeat only at `T0`,
with the inner signal's value there. -/
theorem computeAnd_dup {x y z : Signal} {b e T0 : ℚ} (hx : WF0 x) (hy : WF0 y)
    (hfx : Flat x.samples) (hfy : Flat y.samples) (bx : x.beginTime = b) (ex : x.endTime = e)
    (by' : y.beginTime = b) (ey : y.endTime = e) (hbT : b < T0) (hTe : T0 < e)
    (hsx : x.samples.Pairwise fun p q => p.time < q.time ∨ p.time = T0 ∧ q.time = T0)
    (hsy : y.samples.Pairwise fun p q => p.time < q.time ∨ p.time ≤ b ∨ p.time = T0 ∨ p.time = e)
    (hvc : ∀ j ∈ y.samples, b < j.time → j.time < e → j.value = y.v (pl j.time))
    (h1 : y.v (pl T0) ≤ x.v (mi T0)) (h2 : ∀ i ∈ x.samples, i.time = T0 → y.v (pl T0) ≤ i.value)
    (h3 : y.v (pl T0) ≤ x.v (pl T0))
    (hcnt : x.samples.countP (fun p => p.time = T0) ≤ y.samples.countP (fun p => p.time = T0))
    (h : computeAnd x y = .ok z) : Flat z.samples ∧ SInc z.samples := by
  have hmax : max x.beginTime y.beginTime = b := by rw [bx, by', max_self]
  have hmin : min x.endTime y.endTime = e := by rw [ex, ey, min_self]
  refine computeAnd_g (G := fun T => min (x.v (pl T)) (y.v (pl T))) hx hy hfx hfy
    (by rw [hmax, hmin]; exact hbT.trans hTe) ?_ h
  rw [hmax, hmin]
  intro is js prei prej hi hj hpi hpj his hjs
  have valOf : ∀ {w : Signal} {l pre : List Sample}, WF0 w → w.beginTime = b →
      w.samples.reverse = pre ++ l → (∀ p ∈ pre, e ≤ p.time) → ∀ τ, pl b ≤ τ → τ < pl e →
      valR l τ = some (w.v τ) := by
    intro w l pre hw hwb hl hpre τ a c
    rw [← hw.val (by rw [hwb]; exact a), val_eq_valR, hl, valR_prefix]
    exact fun p hp => lt_of_lt_of_le c (by simpa using hpre p hp)
  have cntOf : ∀ {w : Signal} {l pre : List Sample}, w.samples.reverse = pre ++ l →
      (∀ p ∈ pre, e ≤ p.time) → w.samples.countP (fun p => p.time = T0) =
        l.countP (fun p => p.time = T0) := by
    intro w l pre hl hpre
    rw [← List.countP_reverse, hl, List.countP_append]
    have : pre.countP (fun p => p.time = T0) = 0 := by
      rw [List.countP_eq_zero]
      intro p hp
      have := hpre p hp
      simp only [decide_eq_true_eq]
      intro h
      linarith
    omega
  have mem : ∀ {w : Signal} {l pre : List Sample}, w.samples.reverse = pre ++ l → ∀ p ∈ l, p ∈ w.samples := by
    intro w l pre hl p hp
    rw [← List.mem_reverse, hl]; simp [hp]
  have hxr : (prei ++ is).Pairwise fun p q => q.time < p.time ∨ q.time = T0 ∧ p.time = T0 := by
    rw [← hi]
    exact List.pairwise_reverse.2 hsx
  have hyr : (prej ++ js).Pairwise fun p q => q.time < p.time ∨ q.time ≤ b ∨ q.time = T0 ∨ q.time = e := by
    rw [← hj]
    exact List.pairwise_reverse.2 hsy
  have hyr' : (prej ++ js).Pairwise fun p q => q.time ≤ p.time := by
    rw [← hj]
    exact List.pairwise_reverse.2 hy.sorted
  have hyj := (List.pairwise_append.1 hyr').2.1
  have hG0 : min (x.v (pl T0)) (y.v (pl T0)) = y.v (pl T0) := min_eq_right h3
  refine okRun_of (X := fun T => x.v (pl T)) (Y := fun T => y.v (pl T)) (T0 := T0) is js e
    (fun p hp => hfx p (mem hi p hp)) (fun p hp => hfy p (mem hj p hp))
    (List.pairwise_append.1 hxr).2.1 (fun i hi => Or.inl (his i hi)) hyj ?_
    (fun j hj => Or.inl (hjs j hj)) (fun j hj' hs => hvc j (mem hj j hj') hs (hjs j hj'))
    (fun T a c => valOf hx bx hi hpi _ (by simpa using a.le) (by simpa using c))
    (fun T a c => valOf hy by' hj hpj _ (by simpa using a.le) (by simpa using c))
    (fun _ _ _ => rfl) ?_ ?_ ?_
  · have hs := (List.pairwise_append.1 hyr).2.1
    refine (hs.and hyj).imp_of_mem ?_
    rintro p q hp hq ⟨h5 | h5 | h5 | h5, h6⟩
    · exact Or.inl h5
    · rcases h6.lt_or_eq with h7 | h7
      · exact Or.inl h7
      · exact Or.inr (Or.inl (h7 ▸ h5))
    · rcases h6.lt_or_eq with h7 | h7
      · exact Or.inl h7
      · exact Or.inr (Or.inr (h7 ▸ h5))
    · exact absurd (hjs q hq) (by rw [h5]; exact lt_irrefl _)
  · intro i hi' hiT
    show min (x.v (pl T0)) (y.v (pl T0)) = _
    rw [hG0, min_eq_right (h2 i (mem hi i hi') hiT)]
  · intro v hv _
    show min (x.v (pl T0)) (y.v (pl T0)) = _
    rw [valOf hx bx hi hpi _ (by simpa using hbT) (by
      exact lt_of_lt_of_le (by simp) (show pl T0 ≤ pl e by simpa using hTe.le))] at hv
    simp only [Option.some.injEq] at hv
    rw [hG0, ← hv, min_eq_right h1]
  · rw [← cntOf hi hpi, ← cntOf hj hpj]
    exact hcnt

theorem computeOr_dup {x y z : Signal} {b e T0 : ℚ} (hx : WF0 x) (hy : WF0 y)
    (hfx : Flat x.samples) (hfy : Flat y.samples) (bx : x.beginTime = b) (ex : x.endTime = e)
    (by' : y.beginTime = b) (ey : y.endTime = e) (hbT : b < T0) (hTe : T0 < e)
    (hsx : x.samples.Pairwise fun p q => p.time < q.time ∨ p.time = T0 ∧ q.time = T0)
    (hsy : y.samples.Pairwise fun p q => p.time < q.time ∨ p.time ≤ b ∨ p.time = T0 ∨ p.time = e)
    (hvc : ∀ j ∈ y.samples, b < j.time → j.time < e → j.value = y.v (pl j.time))
    (h1 : x.v (mi T0) ≤ y.v (pl T0)) (h2 : ∀ i ∈ x.samples, i.time = T0 → i.value ≤ y.v (pl T0))
    (h3 : x.v (pl T0) ≤ y.v (pl T0))
    (hcnt : x.samples.countP (fun p => p.time = T0) ≤ y.samples.countP (fun p => p.time = T0))
    (h : computeOr x y = .ok z) : Flat z.samples ∧ SInc z.samples := by
  have e' := computeAnd_not x y
  rw [h] at e'
  obtain ⟨c, d⟩ := computeAnd_dup (T0 := T0) hx.not hy.not hfx.not hfy.not bx ex by' ey hbT hTe
    (by rw [computeNot_samples]; exact List.pairwise_map.2 (by simpa using hsx))
    (by rw [computeNot_samples]; exact List.pairwise_map.2 (by simpa using hsy))
    (by
      intro j hj a c
      rw [computeNot_samples] at hj
      obtain ⟨q, hq, rfl⟩ := List.mem_map.1 hj
      rw [v_not, Sample.neg_value, Sample.neg_time, hvc q hq a c])
    (by rw [v_not, v_not]; exact neg_le_neg h1)
    (by
      intro j hj a
      rw [computeNot_samples] at hj
      obtain ⟨q, hq, rfl⟩ := List.mem_map.1 hj
      rw [v_not, Sample.neg_value]
      exact neg_le_neg (h2 q hq a))
    (by rw [v_not, v_not]; exact neg_le_neg h3)
    (by
      rw [computeNot_samples, computeNot_samples, List.countP_map, List.countP_map]
      exact hcnt) e'
  have c' := Flat.not c
  have d' : SInc (computeNot (computeNot z)).samples := by
    rw [computeNot_samples]
    exact List.pairwise_map.2 (by simpa [SInc] using d)
  rw [computeNot_computeNot] at c' d'
  exact ⟨c', d'⟩

end STLRom
