import Verif.Proofs.StepEv
import Verif.Proofs.StepDup
import Verif.Proofs.Select
import Verif.Proofs.UntilStep

/-!
# `until` on step signals is a step signal
-/

namespace STLRom
open Signal Spec

theorem flat_negs {l : List Sample} (h : Flat l) : Flat (negs l) := by
  intro p hp
  obtain ⟨q, hq, rfl⟩ := List.mem_map.1 hp
  simp [h q hq]

theorem StepL.negs {e t : ℚ} {z : List Sample} (h : StepL e t z) : StepL e t (negs z) := by
  refine ⟨flat_negs h.flat, List.pairwise_map.2 (by simpa [SInc] using h.sinc), fun q hq => ?_⟩
  obtain ⟨p, hp, rfl⟩ := List.mem_map.1 hq
  simpa using h.rng p hp

theorem segmentOr_step {e t : ℚ} {i : Sample} (hi : i.derivative = 0) {z js : List Sample}
    {r : List Sample × List Sample} (hf : Flat js) (hp : js.Pairwise fun p q => q.time < p.time)
    (ht : ∀ j ∈ js, j.time < t) (hit : i.time < t) (hte : t ≤ e) (hz : StepL e t z)
    (h : segmentOr z i t js = .ok r) :
    StepL e i.time r.1 ∧ ∃ p l, r.1 = p :: l ∧ p.time = i.time := by
  have hn := segmentAnd_neg i z js t
  rw [h] at hn
  obtain ⟨a1, ⟨p, l, a2, a3⟩, _⟩ := segmentAnd_step (e := e) (i := i.neg) (by simp [hi]) (flat_negs hf)
    (List.pairwise_map.2 (by simpa using hp))
    (fun j hj => by obtain ⟨q, hq, rfl⟩ := List.mem_map.1 hj; simpa using ht q hq)
    (by simpa using hit) hte hz.negs hn
  have b1 := a1.negs
  rw [negs_negs, Sample.neg_time] at b1
  refine ⟨b1, ?_⟩
  have a2' : r.1.map Sample.neg = p :: l := a2
  cases hr : r.1 with
  | nil => rw [hr] at a2'; simp at a2'
  | cons q m =>
    rw [hr] at a2'
    simp only [List.map_cons, List.cons.injEq] at a2'
    refine ⟨q, m, rfl, ?_⟩
    rw [← a2'.1] at a3
    simpa using a3

/-- The times written by `eventually`. -/
theorem partialEventually_times {s u : ℚ} : ∀ (is z : List Sample) (t : ℚ) (c : Bool) (zmax : ℚ)
    (z' is' : List Sample), Flat is → (∀ p ∈ is, s ≤ p.time ∧ p.time < u) → (∀ p ∈ z, s ≤ p.time ∧ p.time < u) →
    (c = true → s ≤ t ∧ t < u) → s < u → partialEventually s z is t c zmax = .ok (z', is') →
    (∀ p ∈ z', s ≤ p.time ∧ p.time < u) ∧ ∃ p l, z' = p :: l ∧ p.time = s
  | [], z, t, c, zmax, z', is' => by
    intro _ _ _ _ _ h; simp [partialEventually] at h
  | i :: is, z, t, c, zmax, z', is' => by
    intro hf hi hz hc hsu h
    have hi0 : i.derivative = 0 := hf i (by simp)
    have hf' : Flat is := fun q hq => hf q (by simp [hq])
    have hi' : ∀ p ∈ is, s ≤ p.time ∧ p.time < u := fun p hp => hi p (by simp [hp])
    have hit := hi i (by simp)
    have push : ∀ p ∈ (if c = true then (⟨t, zmax, 0⟩ :: z : List Sample) else z), s ≤ p.time ∧ p.time < u := by
      cases c with
      | true =>
        intro p hp
        rcases List.mem_cons.1 hp with rfl | hp
        · exact hc rfl
        · exact hz p hp
      | false => exact hz
    have fin : ∀ {v d : ℚ} {w : List Sample}, (∀ p ∈ w, s ≤ p.time ∧ p.time < u) →
        ∀ p ∈ (⟨s, v, d⟩ :: w : List Sample), s ≤ p.time ∧ p.time < u := by
      intro v d w hw p hp
      rcases List.mem_cons.1 hp with rfl | hp
      · exact ⟨le_rfl, hsu⟩
      · exact hw p hp
    rw [partialEventually] at h
    by_cases h1 : s < i.time
    · rw [if_pos h1, if_pos hi0.ge] at h
      by_cases h2 : zmax < i.valueAt t
      · rw [if_pos h2] at h
        exact partialEventually_times is _ _ _ _ z' is' hf' hi' push (fun _ => hit) hsu h
      · rw [if_neg h2] at h
        exact partialEventually_times is _ _ _ _ z' is' hf' hi' hz (fun _ => hit) hsu h
    · rw [if_neg h1, if_pos hi0.ge] at h
      by_cases h2 : zmax < i.valueAt t
      · rw [if_pos h2] at h
        simp only [Except.ok.injEq, Prod.mk.injEq] at h
        rw [← h.1]
        exact ⟨fin push, _, _, rfl, rfl⟩
      · rw [if_neg h2] at h
        simp only [Except.ok.injEq, Prod.mk.injEq] at h
        rw [← h.1]
        exact ⟨fin hz, _, _, rfl, rfl⟩

theorem segmentUntil_step {e t B zm : ℚ} {i : Sample} (hi : i.derivative = 0) {z js : List Sample}
    {r : List Sample × List Sample} (hf : Flat js) (hp : js.Pairwise fun p q => q.time < p.time)
    (ht : ∀ j ∈ js, j.time < t) (hit : i.time < t) (hte : t ≤ e) (hz : StepL e t z)
    (h : segmentUntil B z i t js zm = .ok r) :
    StepL e i.time r.1 ∧ (∃ p l, r.1 = p :: l ∧ p.time = i.time) ∧
      (∃ j js', r.2 = j :: js' ∧ j.time ≤ i.time) ∧ r.2 <:+ js := by
  unfold segmentUntil at h
  simp only [if_pos hi.le] at h
  obtain ⟨⟨z1, js'⟩, h1, h⟩ := bind_eq_ok.1 h
  obtain ⟨⟨z2, _⟩, h2, h⟩ := bind_eq_ok.1 h
  obtain ⟨⟨z', _⟩, h3, h⟩ := bind_eq_ok.1 h
  simp only [Except.ok.injEq] at h
  subst h
  have hnil : ∀ a b : ℚ, StepL a b [] := fun a b => ⟨by simp [Flat], by simp [SInc], by simp⟩
  obtain ⟨a1, a2, a3, a4⟩ := segmentAnd_step (e := t) hi hf hp ht hit le_rfl (hnil _ _) h1
  obtain ⟨g1, _⟩ := segmentAnd_g (G := fun _ => 0) (s := t) (e := t) hi hf (hp.imp le_of_lt)
    (fun j hj => ⟨(ht j hj).le, ht j hj⟩) hit.le hit
    ⟨by simp [Flat], by simp [Sorted], by simp, by simp⟩
    (fun j hj _ k => absurd (ht j hj) (not_lt.2 k.le)) (fun k => absurd hit (not_lt.2 k.le)) h1
  have hrng : ∀ p ∈ z1.reverse, i.time ≤ p.time ∧ p.time < t := fun p hp => g1.rng p (List.mem_reverse.1 hp)
  have hfl : Flat z1.reverse := fun p hp => a1.flat p (List.mem_reverse.1 hp)
  obtain ⟨b1, b2⟩ := partialEventually_step z1.reverse [] t false _ z2 _ hfl a1.sinc.reverse (by simp)
    (fun _ => rfl) (by simp) (by simp [Flat]) (by simp [SInc]) (fun p hp => (hrng p hp).1) h2
  obtain ⟨c1, _⟩ := partialEventually_times (u := t) z1.reverse [] t false _ z2 _ hfl hrng (by simp) (by simp)
    hit h2
  obtain ⟨d1, d2⟩ := segmentOr_step (e := e) (i := ⟨i.time, fmin zm (i.valueAt t), 0⟩) rfl
    (fun p hp => b1 p (List.mem_reverse.1 hp)) b2.reverse
    (fun p hp => (c1 p (List.mem_reverse.1 hp)).2) hit hte hz h3
  exact ⟨d1, d2, a3, a4⟩

theorem untilLoop_step {s e B : ℚ} : ∀ (is z js : List Sample) (t zm : ℚ) (r : List Sample),
    Flat is → is.Pairwise (fun p q => q.time < p.time) → (∀ i ∈ is, i.time < t) →
    Flat js → js.Pairwise (fun p q => q.time < p.time) → (∀ j ∈ js, j.time < t) →
    s < t → t ≤ e → StepL e t z → untilLoop B s z is js t zm = .ok r →
    StepL e s r ∧ ∃ p l, r = p :: l ∧ p.time = s := by
  intro is
  induction is with
  | nil => intro z js t zm r _ _ _ _ _ _ _ _ _ h; simp [untilLoop] at h
  | cons i is ih =>
    intro z js t zm r hfi hpi hti hfj hpj htj hst hte hz h
    have hi : i.derivative = 0 := hfi i (by simp)
    have hpi' := List.pairwise_cons.1 hpi
    rw [untilLoop] at h
    have last : ∀ {i' : Sample}, i'.derivative = 0 → i'.time = s →
        (segmentUntil B z i' t js zm >>= fun x => Except.ok x.1) = .ok r →
        StepL e s r ∧ ∃ p l, r = p :: l ∧ p.time = s := by
      intro i' h1 h2 h3
      obtain ⟨x, hs, h3⟩ := bind_eq_ok.1 h3
      simp only [Except.ok.injEq] at h3
      subst h3
      obtain ⟨a1, a2, _⟩ := segmentUntil_step h1 hfj hpj htj (h2 ▸ hst) hte hz hs
      rw [h2] at a1 a2
      exact ⟨a1, a2⟩
    by_cases h1 : s < i.time
    · rw [if_pos h1] at h
      obtain ⟨⟨z', l'⟩, hs, h⟩ := bind_eq_ok.1 h
      obtain ⟨a1, ⟨p, l, a2, _⟩, ⟨j, js', a3, a4⟩, a5⟩ := segmentUntil_step hi hfj hpj htj (hti i (by simp)) hte hz hs
      simp only at a1 a2 a3 a5 h
      subst a2 a3
      simp only at h
      have hpl : (j :: js').Pairwise fun p q => q.time < p.time := hpj.sublist a5.sublist
      have hsub : (if j.time = i.time then js' else j :: js') <:+ j :: js' := by
        split_ifs
        · exact List.suffix_cons _ _
        · exact List.suffix_rfl
      refine ih _ _ i.time _ r (fun p hp => hfi p (by simp [hp])) hpi'.2 hpi'.1
        (fun p hp => hfj p (a5.subset (hsub.subset hp))) (hpl.sublist hsub.sublist) ?_ h1
        ((hti i (by simp)).le.trans hte) a1 h
      intro p hp
      split_ifs at hp with h2
      · exact lt_of_lt_of_le ((List.pairwise_cons.1 hpl).1 p hp) a4
      · rcases List.mem_cons.1 hp with rfl | hp
        · exact lt_of_le_of_ne a4 h2
        · exact lt_of_lt_of_le ((List.pairwise_cons.1 hpl).1 p hp) a4
    · rw [if_neg h1] at h
      by_cases h2 : i.time = s
      · rw [if_pos h2] at h
        exact last hi h2 h
      · rw [if_neg h2] at h
        exact last (i' := ⟨s, i.valueAt s, i.derivative⟩) hi rfl h

/-- `until` of two step signals on a proper interval is a step signal. -/
theorem computeUntil_step {x y z : Signal} {B : ℚ} (hx : WF0 x) (hy : WF0 y) (hfx : Flat x.samples)
    (hfy : Flat y.samples) (hsx : SInc x.samples) (hsy : SInc y.samples)
    (hlt : max x.beginTime y.beginTime < min x.endTime y.endTime) (h : computeUntil B x y = .ok z) :
    Flat z.samples ∧ SInc z.samples := by
  have sk : ∀ {w : Signal}, WF0 w → Flat w.samples → SInc w.samples →
      w.beginTime < min x.endTime y.endTime →
      ∃ l, skip (min x.endTime y.endTime) w.samples.reverse = .ok l ∧ Flat l ∧
        l.Pairwise (fun p q => q.time < p.time) ∧ ∀ p ∈ l, p.time < min x.endTime y.endTime := by
    intro w hw hf hs hb
    obtain ⟨p, l, hl, hp⟩ := hw.exists_cons
    obtain ⟨l', h1, h2, h3, h4, h5⟩ := skip_spec (e := min x.endTime y.endTime) (l := w.samples.reverse)
      (List.pairwise_reverse.2 hw.sorted) ⟨p, by simp [hl], by rw [hp]; exact hb⟩
    obtain ⟨pre, h6⟩ := skip_suffix h1
    refine ⟨l', h1, fun q hq => hf q ?_, ?_, h4⟩
    · rw [← List.mem_reverse, h6]; simp [hq]
    · have := hs.reverse
      rw [h6] at this
      exact (List.pairwise_append.1 this).2.1
  obtain ⟨is, i1, i2, i3, i4⟩ := sk hx hfx hsx (lt_of_le_of_lt (le_max_left _ _) hlt)
  obtain ⟨js, j1, j2, j3, j4⟩ := sk hy hfy hsy (lt_of_le_of_lt (le_max_right _ _) hlt)
  simp only [computeUntil, fmax_eq, fmin_eq, i1, j1] at h
  obtain ⟨is', e1, h⟩ := bind_eq_ok.1 h
  obtain rfl := Except.ok.inj e1
  obtain ⟨js', e1, h⟩ := bind_eq_ok.1 h
  obtain rfl := Except.ok.inj e1
  obtain ⟨l, hp, h⟩ := bind_eq_ok.1 h
  obtain ⟨a1, a2⟩ := untilLoop_step (e := min x.endTime y.endTime) is [] js _ _ l i2 i3 i4 j2 j3 j4 hlt
    le_rfl ⟨by simp [Flat], by simp [SInc], by simp⟩ hp
  exact simplify_step (x := ⟨l, _, _⟩) a1 a2 h

theorem computeBoundedGlobally_step {x z : Signal} {B a : ℚ} (hx : WF0 x)
    (hs : SInc x.samples) (hf : Flat x.samples) (ha : 0 < a) (hab : x.beginTime + a < x.endTime)
    (hB : ∀ σ, pl x.beginTime ≤ σ → σ ≤ pl x.endTime → x.v σ ≤ B)
    (h : computeBoundedGlobally B x a = .ok z) : Flat z.samples ∧ SInc z.samples := by
  have e := computeBoundedGlobally_not B (computeNot x) a
  rw [computeNot_computeNot, h] at e
  cases hz : computeBoundedEventually B (computeNot x) a with
  | error f => rw [hz] at e; simp [Except.map] at e
  | ok w =>
    rw [hz] at e
    have hw : z = computeNot w := by simpa [Except.map] using e
    obtain ⟨c, d⟩ := computeBoundedEventually_step hx.not (sinc_not hs) hf.not ha hab
      (fun σ a b => by rw [v_not]; exact neg_le_neg (hB σ a b)) hz
    rw [hw]
    exact ⟨c.not, sinc_not d⟩

end STLRom
