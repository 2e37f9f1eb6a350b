import Verif.Proofs.Append
import Verif.Proofs.Resize
import Verif.Proofs.Ev

/-!
# Signals made of the pieces of a continuous function
-/

namespace STLRom
open Signal

/-- The samples are the linear pieces of `f` from the first sample's time up to `E`. -/
def Pieces (f : ℚ → ℚ) (E : ℚ) : List Sample → Prop
  | [] => True
  | [p] => p.time ≤ E ∧ ∀ x, p.time ≤ x → x ≤ E → f x = p.valueAt x
  | p :: q :: r => p.time < q.time ∧ (∀ x, p.time ≤ x → x ≤ q.time → f x = p.valueAt x) ∧
      Pieces f E (q :: r)

theorem Pieces.tail {f : ℚ → ℚ} {E : ℚ} {p : Sample} {l : List Sample} (h : Pieces f E (p :: l)) :
    Pieces f E l := by
  cases l with
  | nil => trivial
  | cons q r => exact h.2.2

theorem Pieces.value {f : ℚ → ℚ} {E : ℚ} {p : Sample} {l : List Sample} (h : Pieces f E (p :: l)) :
    f p.time = p.value := by
  cases l with
  | nil => rw [h.2 _ le_rfl h.1, valueAt_self]
  | cons q r => rw [h.2.1 _ le_rfl h.1.le, valueAt_self]

theorem Pieces.sinc {f : ℚ → ℚ} {E : ℚ} : ∀ {l : List Sample}, Pieces f E l → SInc l
  | [], _ => List.Pairwise.nil
  | [p], _ => by simp [SInc]
  | p :: q :: r, h => by
    have ih := h.2.2.sinc
    refine List.pairwise_cons.2 ⟨?_, ih⟩
    intro a ha
    rcases List.mem_cons.1 ha with rfl | ha
    · exact h.1
    · exact h.1.trans ((List.pairwise_cons.1 ih).1 a ha)

theorem Pieces.le_end {f : ℚ → ℚ} {E : ℚ} : ∀ {l : List Sample}, Pieces f E l →
    ∀ p ∈ l, p.time ≤ E
  | [], _ => by simp
  | [p], h => by simpa using h.1
  | p :: q :: r, h => by
    have ih := h.2.2.le_end
    intro a ha
    rcases List.mem_cons.1 ha with rfl | ha
    · exact h.1.le.trans (ih q (by simp))
    · exact ih a ha

theorem Pieces.val {f : ℚ → ℚ} {E : ℚ} : ∀ {p : Sample} {l : List Sample}, Pieces f E (p :: l) →
    ∀ τ, pl p.time ≤ τ → τ ≤ pl E → STLRom.val (p :: l) τ = some (f τ.time)
  | p, [], h, τ, h1, h2 => by
    rw [val_cons_of_lt (by simp) h1, h.2 _ (pl_le_iff h1) (le_pl_iff.1 h2)]
  | p, q :: r, h, τ, h1, h2 => by
    rcases le_or_gt (pl q.time) τ with h3 | h3
    · exact val_cons_of_some (h.2.2.val τ h3 h2)
    · have hs := (List.pairwise_cons.1 h.2.2.sinc).1
      rw [val_cons_of_lt ?_ h1, h.2.1 _ (pl_le_iff h1) (Pt.time_le h3.le)]
      intro a ha
      rcases List.mem_cons.1 ha with rfl | ha
      · exact h3
      · exact h3.trans (by simpa using hs a ha)

theorem pieces_of_val {f : ℚ → ℚ} {E : ℚ} : ∀ {p : Sample} {l : List Sample}, SInc (p :: l) →
    (∀ q ∈ p :: l, q.time ≤ E) →
    (∀ τ, pl p.time ≤ τ → τ ≤ pl E → STLRom.val (p :: l) τ = some (f τ.time)) →
    Pieces f E (p :: l)
  | p, [], hs, he, hv => by
    refine ⟨he p (by simp), fun x h1 h2 => ?_⟩
    have := hv (pl x) (by simpa using h1) (by simpa using h2)
    rw [val_cons_of_lt (by simp) (by simpa using h1)] at this
    exact (Option.some.inj this).symm
  | p, q :: r, hs, he, hv => by
    have hs' := List.pairwise_cons.1 hs
    have hpq : p.time < q.time := hs'.1 q (by simp)
    have hqE := he q (by simp)
    refine ⟨hpq, fun x h1 h2 => ?_, pieces_of_val hs'.2 (fun a ha => he a (List.mem_cons_of_mem _ ha)) ?_⟩
    · rcases h2.lt_or_eq with h3 | h3
      · have := hv (pl x) (by simpa using h1) (by simpa using h2.trans hqE)
        rw [val_cons_of_lt ?_ (by simpa using h1)] at this
        · exact (Option.some.inj this).symm
        · intro a ha
          rcases List.mem_cons.1 ha with rfl | ha
          · simpa using h3
          · simpa using h3.trans ((List.pairwise_cons.1 hs'.2).1 a ha)
      · have := hv (mi x) (by simpa [h3] using hpq) (by simpa using h2.trans hqE)
        rw [val_cons_of_lt ?_ (by simpa [h3] using hpq)] at this
        · exact (Option.some.inj this).symm
        · intro a ha
          rcases List.mem_cons.1 ha with rfl | ha
          · simpa using h3.le
          · simpa using (h3.le.trans_lt ((List.pairwise_cons.1 hs'.2).1 a ha)).le
    · intro τ h1 h2
      rw [← hv τ (le_trans (by simpa using hpq.le) h1) h2]
      have : pl q.time ≤ τ := h1
      exact (val_cons_skip this).symm

/-- Combining two signals with the same sample times. -/
def comb (g : Sample → Sample → Sample) (l r : List Sample) : List Sample := List.zipWith g l r

/-- The times of the samples. -/
abbrev times (l : List Sample) : List ℚ := l.map Sample.time

theorem comb_pieces {f1 f2 f : ℚ → ℚ} {E : ℚ} {g : Sample → Sample → Sample}
    (hg : ∀ p q, (g p q).time = p.time)
    (hv : ∀ p q x, p.time = q.time → f1 p.time = p.value → f2 p.time = q.value →
      f1 x = p.valueAt x → f2 x = q.valueAt x → p.time ≤ x → x ≤ E →
      f x = (g p q).valueAt x) :
    ∀ {l r : List Sample}, times l = times r → Pieces f1 E l → Pieces f2 E r →
      Pieces f E (comb g l r)
  | [], _, _, _, _ => by simp [comb, Pieces]
  | [p], [q], ht, h1, h2 => by
    simp only [times, List.map_cons, List.map_nil, List.cons.injEq, and_true] at ht
    refine ⟨by rw [hg]; exact h1.1, fun x a b => ?_⟩
    rw [hg] at a
    exact hv p q x ht h1.value (by rw [ht]; exact h2.value) (h1.2 x a b) (h2.2 x (ht ▸ a) b) a b
  | [p], q :: q' :: r, ht, _, _ => by simp at ht
  | [p], [], ht, _, _ => by simp at ht
  | p :: p' :: l, [], ht, _, _ => by simp at ht
  | p :: p' :: l, [q], ht, _, _ => by simp at ht
  | p :: p' :: l, q :: q' :: r, ht, h1, h2 => by
    have ht' : times (p' :: l) = times (q' :: r) := by
      simp only [times, List.map_cons, List.cons.injEq] at ht ⊢
      exact ht.2
    simp only [times, List.map_cons, List.cons.injEq] at ht
    have ih := comb_pieces hg hv ht' h1.2.2 h2.2.2
    have hle := h1.2.2.le_end p' (by simp)
    refine ⟨by rw [hg, hg]; exact h1.1, fun x a b => ?_, ih⟩
    rw [hg] at a b
    exact hv p q x ht.1 h1.value (by rw [ht.1]; exact h2.value) (h1.2.1 x a b) (h2.2.1 x (ht.1 ▸ a) (ht.2.1 ▸ b)) a (b.trans hle)

theorem comb_times {g : Sample → Sample → Sample} (hg : ∀ p q, (g p q).time = p.time) :
    ∀ {l r : List Sample}, times l = times r → times (comb g l r) = times l
  | [], _, _ => rfl
  | p :: l, [], ht => by simp at ht
  | p :: l, q :: r, ht => by
    simp only [times, List.map_cons, List.cons.injEq] at ht
    simp only [comb, List.zipWith_cons_cons, times, List.map_cons, hg]
    congr 1
    exact comb_times hg ht.2

/-! ## Rebuilding a signal by appending -/

/-- Inner derivatives replaced by the slope to the next sample. -/
def relink : List Sample → List Sample
  | [] => []
  | [p] => [p]
  | p :: q :: r => ⟨p.time, p.value, (q.value - p.value) / (q.time - p.time)⟩ :: relink (q :: r)

theorem relink_ne {l : List Sample} (h : l ≠ []) : relink l ≠ [] := by
  cases l with
  | nil => exact absurd rfl h
  | cons p l => cases l <;> simp [relink]

theorem relink_getLast? : ∀ l : List Sample, (relink l).getLast? = l.getLast?
  | [] => rfl
  | [p] => rfl
  | p :: q :: r => by
    rw [relink, getLast?_cons' _ (relink_ne (by simp)), relink_getLast?, List.getLast?_cons_cons]

theorem relink_snoc : ∀ (l : List Sample) (b p : Sample), l.getLast? = some b →
    relink (l ++ [p]) = setBackDerivative (relink l) ((p.value - b.value) / (p.time - b.time)) ++ [p]
  | [], b, p, h => by simp at h
  | [a], b, p, h => by
    simp only [List.getLast?_singleton, Option.some.injEq] at h
    subst h
    simp [relink, setBackDerivative]
  | a :: a' :: r, b, p, h => by
    rw [List.getLast?_cons_cons] at h
    have ih := relink_snoc (a' :: r) b p h
    simp only [List.cons_append] at ih ⊢
    simp only [relink]
    rw [ih, setBack_cons _ (relink_ne (by simp)), List.cons_append]

/-- The signal with the samples `l`, relinked. -/
def relinkSig (l : List Sample) : Signal :=
  match l, l.getLast? with
  | p :: _, some q => ⟨relink l, p.time, q.time⟩
  | _, _ => Signal.empty

theorem relinkSig_eq {p : Sample} {l : List Sample} {q : Sample} (h : (p :: l).getLast? = some q) :
    relinkSig (p :: l) = ⟨relink (p :: l), p.time, q.time⟩ := by
  simp only [relinkSig, h]

theorem appendSamples_relink : ∀ (rs l : List Sample), SInc (l ++ rs) →
    appendSamples .LINEAR (relinkSig l) rs = .ok (relinkSig (l ++ rs))
  | [], l, _ => by simp [appendSamples]
  | p :: rs, l, h => by
    have key : appendSample .LINEAR (relinkSig l) p.time p.value p.derivative =
        .ok (relinkSig (l ++ [p])) := by
      cases l with
      | nil => simp [relinkSig, appendSample, Signal.empty, relink]
      | cons a l =>
        obtain ⟨b, hb⟩ : ∃ b, (a :: l).getLast? = some b :=
          ⟨_, List.getLast?_eq_some_getLast (by simp)⟩
        have hbp : b.time < p.time :=
          (List.pairwise_append.1 h).2.2 b (List.mem_of_getLast? hb) p (by simp)
        have hR : relinkSig (a :: l ++ [p]) = ⟨relink (a :: l ++ [p]), a.time, p.time⟩ :=
          by
          have e : a :: l ++ [p] = a :: (l ++ [p]) := rfl
          rw [e]
          exact relinkSig_eq (by rw [← e]; exact List.getLast?_concat)
        rw [relinkSig_eq hb, hR, relink_snoc _ _ _ hb]
        rw [appendSample.eq_def, if_neg (by simp only [not_and]; intro h'; exact absurd hbp (not_lt.2 h'))]
        simp only [relink_getLast?, hb, qdiv, sub_eq_zero, if_neg hbp.ne', bind, Except.bind]
    rw [appendSamples, key]
    show appendSamples .LINEAR (relinkSig (l ++ [p])) rs = _
    have := appendSamples_relink rs (l ++ [p]) (by simpa using h)
    simpa using this

theorem appendSamples_empty {rs : List Sample} (h : SInc rs) :
    appendSamples .LINEAR Signal.empty rs = .ok (relinkSig rs) := by
  have := appendSamples_relink rs [] (by simpa using h)
  simpa [relinkSig] using this

/-- Appending to a signal that already reaches beyond changes nothing. -/
theorem appendSamples_skip (ip : Interpol) {x : Signal} (hx : x.samples ≠ []) :
    ∀ rs : List Sample, (∀ p ∈ rs, p.time ≤ x.endTime) → appendSamples ip x rs = .ok x
  | [], _ => rfl
  | p :: rs, h => by
    rw [appendSamples, appendSample.eq_def, if_pos ⟨h p (by simp), hx⟩]
    exact appendSamples_skip ip hx rs fun q hq => h q (by simp [hq])

theorem Pieces.relink_eq {f : ℚ → ℚ} {E : ℚ} : ∀ {l : List Sample}, Pieces f E l → relink l = l
  | [], _ => rfl
  | [p], _ => rfl
  | p :: q :: r, h => by
    have hv := h.2.1 q.time h.1.le le_rfl
    rw [h.2.2.value] at hv
    have hne : q.time - p.time ≠ 0 := (sub_pos.2 h.1).ne'
    rw [relink, h.2.2.relink_eq, hv]
    congr 1
    rcases p with ⟨t, v, d⟩
    simp only [Sample.valueAt, Sample.mk.injEq, true_and]
    simp only at hne
    field_simp
    ring

/-- Rebuilding from the values alone keeps all pieces but the one after the last sample. -/
theorem Pieces.rebuild {f : ℚ → ℚ} {E : ℚ} : ∀ {l l' : List Sample}, Pieces f E l →
    l'.map (fun p => (p.time, p.value)) = l.map (fun p => (p.time, p.value)) →
    (∀ p, l.getLast? = some p → p.time = E) → Pieces f E (relink l')
  | [], l', _, ht, _ => by
    simp only [List.map_nil, List.map_eq_nil_iff] at ht
    subst ht
    trivial
  | [p], l', h, ht, he => by
    match l', ht with
    | [], ht => simp at ht
    | _ :: _ :: _, ht => simp at ht
    | [p'], ht =>
      simp only [List.map_cons, List.map_nil, List.cons.injEq, Prod.mk.injEq, and_true] at ht
      have hE := he p (by simp)
      refine ⟨by rw [ht.1]; exact h.1, fun x a b => ?_⟩
      rw [ht.1] at a
      have : x = p.time := le_antisymm (hE ▸ b) a
      rw [this, h.value]
      simp [Sample.valueAt, ht.1, ht.2]
  | p :: q :: r, l', h, ht, he => by
    match l', ht with
    | [], ht => simp at ht
    | [_], ht => simp at ht
    | p' :: q' :: r', ht =>
      simp only [List.map_cons, List.cons.injEq, Prod.mk.injEq] at ht
      have ih := Pieces.rebuild (l' := q' :: r') h.2.2 (by
        simp only [List.map_cons, List.cons.injEq, Prod.mk.injEq]; exact ht.2)
        (fun a ha => he a (by rw [List.getLast?_cons_cons]; exact ha))
      obtain ⟨⟨t1, t2⟩, ⟨t3, t4⟩, t5⟩ := ht
      have hpq := h.1
      have hv := h.2.1 q.time h.1.le le_rfl
      rw [h.2.2.value] at hv
      have e : ∀ x, (⟨p'.time, p'.value, (q'.value - p'.value) / (q'.time - p'.time)⟩ : Sample).valueAt x
          = p.valueAt x := by
        intro x
        have hne : q.time - p.time ≠ 0 := (sub_pos.2 hpq).ne'
        simp only [Sample.valueAt, t1, t2, t3, t4] at hv ⊢
        rw [hv]
        field_simp
        ring
      have key : ∀ m, Pieces f E m → (∀ a, m.head? = some a → a.time = q.time) → m ≠ [] →
          Pieces f E (⟨p'.time, p'.value, (q'.value - p'.value) / (q'.time - p'.time)⟩ :: m) := by
        intro m hm hh hne
        match m with
        | a :: m =>
          have ha := hh a (by simp)
          refine ⟨by rw [ha]; simp only [t1]; exact hpq, fun x c d => ?_, hm⟩
          rw [e]
          simp only [t1] at c
          rw [ha] at d
          exact h.2.1 x c d
      refine key _ ih ?_ (relink_ne (by simp))
      intro a ha
      cases r' with
      | nil => simp [relink] at ha; rw [← ha]; exact t3
      | cons b r' => simp [relink] at ha; rw [← ha]; exact t3

end STLRom
