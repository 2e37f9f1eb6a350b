import Verif.Proofs.StepAnd
import Verif.Proofs.FormulaLU
import Verif.Proofs.TopSup

/-!
# Formulas evaluated on step signals
-/

namespace STLRom
open Signal Spec

/-- The samples are the constant pieces of `f` from the first sample's time up to `E`. -/
def Steps (f : ℚ → ℚ) (E : ℚ) : List Sample → Prop
  | [] => True
  | [p] => p.time ≤ E ∧ p.derivative = 0 ∧ ∀ x, p.time ≤ x → x ≤ E → f x = p.value
  | p :: q :: r => p.time < q.time ∧ p.derivative = 0 ∧
      (∀ x, p.time ≤ x → x < q.time → f x = p.value) ∧ Steps f E (q :: r)

theorem Steps.tail {f : ℚ → ℚ} {E : ℚ} {p : Sample} {l : List Sample} (h : Steps f E (p :: l)) :
    Steps f E l := by
  cases l with
  | nil => trivial
  | cons q r => exact h.2.2.2

theorem Steps.value {f : ℚ → ℚ} {E : ℚ} {p : Sample} {l : List Sample} (h : Steps f E (p :: l)) :
    f p.time = p.value := by
  cases l with
  | nil => exact h.2.2 _ le_rfl h.1
  | cons q r => exact h.2.2.1 _ le_rfl h.1

theorem Steps.flat {f : ℚ → ℚ} {E : ℚ} : ∀ {l : List Sample}, Steps f E l → Flat l
  | [], _ => by simp [Flat]
  | [p], h => by simpa [Flat] using h.2.1
  | p :: q :: r, h => by
    intro a ha
    rcases List.mem_cons.1 ha with rfl | ha
    · exact h.2.1
    · exact h.2.2.2.flat a ha

theorem Steps.sinc {f : ℚ → ℚ} {E : ℚ} : ∀ {l : List Sample}, Steps f E l → SInc l
  | [], _ => List.Pairwise.nil
  | [p], _ => by simp [SInc]
  | p :: q :: r, h => by
    have ih := h.2.2.2.sinc
    refine List.pairwise_cons.2 ⟨?_, ih⟩
    intro a ha
    rcases List.mem_cons.1 ha with rfl | ha
    · exact h.1
    · exact h.1.trans ((List.pairwise_cons.1 ih).1 a ha)

theorem Steps.le_end {f : ℚ → ℚ} {E : ℚ} : ∀ {l : List Sample}, Steps f E l →
    ∀ p ∈ l, p.time ≤ E
  | [], _ => by simp
  | [p], h => by simpa using h.1
  | p :: q :: r, h => by
    have ih := h.2.2.2.le_end
    intro a ha
    rcases List.mem_cons.1 ha with rfl | ha
    · exact h.1.le.trans (ih q (by simp))
    · exact ih a ha

theorem Steps.val {f : ℚ → ℚ} {E : ℚ} : ∀ {p : Sample} {l : List Sample}, Steps f E (p :: l) →
    ∀ t, p.time ≤ t → t ≤ E → STLRom.val (p :: l) (pl t) = some (f t)
  | p, [], h, t, h1, h2 => by
    rw [val_cons_of_lt (by simp) (by simpa using h1), h.2.2 _ h1 h2, pl_time, flat_valueAt h.2.1]
  | p, q :: r, h, t, h1, h2 => by
    rcases le_or_gt q.time t with h3 | h3
    · exact val_cons_of_some (h.2.2.2.val t h3 h2)
    · have hs := (List.pairwise_cons.1 h.2.2.2.sinc).1
      rw [val_cons_of_lt ?_ (by simpa using h1), h.2.2.1 _ h1 h3, pl_time, flat_valueAt h.2.1]
      intro a ha
      rcases List.mem_cons.1 ha with rfl | ha
      · simpa using h3
      · simpa using h3.trans (hs a ha)

theorem steps_of_val {f : ℚ → ℚ} {E : ℚ} : ∀ {p : Sample} {l : List Sample}, SInc (p :: l) →
    Flat (p :: l) → (∀ q ∈ p :: l, q.time ≤ E) →
    (∀ t, p.time ≤ t → t ≤ E → STLRom.val (p :: l) (pl t) = some (f t)) →
    Steps f E (p :: l)
  | p, [], hs, hf, he, hv => by
    have hp : p.derivative = 0 := hf p (by simp)
    refine ⟨he p (by simp), hp, fun x h1 h2 => ?_⟩
    have := hv x h1 h2
    rw [val_cons_of_lt (by simp) (by simpa using h1), pl_time, flat_valueAt hp] at this
    exact (Option.some.inj this).symm
  | p, q :: r, hs, hf, he, hv => by
    have hs' := List.pairwise_cons.1 hs
    have hp : p.derivative = 0 := hf p (by simp)
    have hpq : p.time < q.time := hs'.1 q (by simp)
    have hqE := he q (by simp)
    refine ⟨hpq, hp, fun x h1 h2 => ?_, steps_of_val hs'.2 (fun a ha => hf a (List.mem_cons_of_mem _ ha))
      (fun a ha => he a (List.mem_cons_of_mem _ ha)) ?_⟩
    · have := hv x h1 (h2.le.trans hqE)
      rw [val_cons_of_lt ?_ (by simpa using h1), pl_time, flat_valueAt hp] at this
      · exact (Option.some.inj this).symm
      · intro a ha
        rcases List.mem_cons.1 ha with rfl | ha
        · simpa using h2
        · simpa using h2.trans ((List.pairwise_cons.1 hs'.2).1 a ha)
    · intro t h1 h2
      rw [← hv t (hpq.le.trans h1) h2]
      exact (val_cons_skip (by simpa using h1)).symm

theorem comb_steps {f1 f2 f : ℚ → ℚ} {E : ℚ} {g : Sample → Sample → Sample}
    (hg : ∀ p q, (g p q).time = p.time)
    (hd : ∀ p q, p.derivative = 0 → q.derivative = 0 → (g p q).derivative = 0)
    (hv : ∀ p q x, f1 x = p.value → f2 x = q.value → f x = (g p q).value) :
    ∀ {l r : List Sample}, times l = times r → Steps f1 E l → Steps f2 E r →
      Steps f E (comb g l r)
  | [], _, _, _, _ => by simp [comb, Steps]
  | [p], [q], ht, h1, h2 => by
    simp only [times, List.map_cons, List.map_nil, List.cons.injEq, and_true] at ht
    refine ⟨by rw [hg]; exact h1.1, hd _ _ h1.2.1 h2.2.1, fun x a b => ?_⟩
    rw [hg] at a
    exact hv p q x (h1.2.2 x a b) (h2.2.2 x (ht ▸ a) b)
  | [p], q :: q' :: r, ht, _, _ => by simp at ht
  | [p], [], ht, _, _ => by simp at ht
  | p :: p' :: l, [], ht, _, _ => by simp at ht
  | p :: p' :: l, [q], ht, _, _ => by simp at ht
  | p :: p' :: l, q :: q' :: r, ht, h1, h2 => by
    have ht' : times (p' :: l) = times (q' :: r) := by
      simp only [times, List.map_cons, List.cons.injEq] at ht ⊢
      exact ht.2
    simp only [times, List.map_cons, List.cons.injEq] at ht
    have ih := comb_steps hg hd hv ht' h1.2.2.2 h2.2.2.2
    refine ⟨by rw [hg, hg]; exact h1.1, hd _ _ h1.2.1 h2.2.1, fun x a b => ?_, ih⟩
    rw [hg] at a b
    exact hv p q x (h1.2.2.1 x a b) (h2.2.2.1 x (ht.1 ▸ a) (ht.2.1 ▸ b))

theorem steps_congr {f g : ℚ → ℚ} {E : ℚ} : ∀ {l : List Sample}, Steps f E l →
    (∀ x, (∃ p ∈ l, p.time ≤ x) → x ≤ E → f x = g x) → Steps g E l
  | [], _, _ => trivial
  | [p], h, e => ⟨h.1, h.2.1, fun x a b => by rw [← e x ⟨p, by simp, a⟩ b]; exact h.2.2 x a b⟩
  | p :: q :: r, h, e => by
    have hq := h.2.2.2.le_end q (by simp)
    refine ⟨h.1, h.2.1, fun x a b => ?_, steps_congr h.2.2.2 fun x ⟨y, hy, hx⟩ hE =>
      e x ⟨y, by simp [hy], hx⟩ hE⟩
    rw [← e x ⟨p, by simp, a⟩ (b.le.trans hq)]; exact h.2.2.1 x a b

/-! ## Appending -/

/-- The signal with the samples `l`. -/
def sigOf (l : List Sample) : Signal :=
  match l, l.getLast? with
  | p :: _, some q => ⟨l, p.time, q.time⟩
  | _, _ => Signal.empty

theorem sigOf_eq {p : Sample} {l : List Sample} {q : Sample} (h : (p :: l).getLast? = some q) :
    sigOf (p :: l) = ⟨p :: l, p.time, q.time⟩ := by
  simp only [sigOf, h]

theorem appendSamples_sigOf : ∀ (rs l : List Sample), SInc (l ++ rs) → Flat rs →
    appendSamples .PREVIOUS (sigOf l) rs = .ok (sigOf (l ++ rs))
  | [], l, _, _ => by simp [appendSamples]
  | p :: rs, l, h, hf => by
    have hp : p.derivative = 0 := hf p (by simp)
    have hpe : (⟨p.time, p.value, 0⟩ : Sample) = p := by rw [← hp]
    have key : appendSample .PREVIOUS (sigOf l) p.time p.value p.derivative =
        .ok (sigOf (l ++ [p])) := by
      cases l with
      | nil => simp [sigOf, appendSample, Signal.empty, hpe]
      | cons a l =>
        obtain ⟨b, hb⟩ : ∃ b, (a :: l).getLast? = some b :=
          ⟨_, List.getLast?_eq_some_getLast (by simp)⟩
        have hbp : b.time < p.time :=
          (List.pairwise_append.1 h).2.2 b (List.mem_of_getLast? hb) p (by simp)
        have hR : sigOf (a :: l ++ [p]) = ⟨a :: l ++ [p], a.time, p.time⟩ := by
          have e : a :: l ++ [p] = a :: (l ++ [p]) := rfl
          rw [e]
          exact sigOf_eq (by rw [← e]; exact List.getLast?_concat)
        rw [sigOf_eq hb, hR]
        rw [appendSample.eq_def, if_neg (by simp only [not_and]; intro h'; exact absurd hbp (not_lt.2 h'))]
        simp [hpe]
    rw [appendSamples, key]
    show appendSamples .PREVIOUS (sigOf (l ++ [p])) rs = _
    have := appendSamples_sigOf rs (l ++ [p]) (by simpa using h) (fun q hq => hf q (by simp [hq]))
    simpa using this

theorem appendSamples_prev {rs : List Sample} (h : SInc rs) (hf : Flat rs) :
    appendSamples .PREVIOUS Signal.empty rs = .ok (sigOf rs) := by
  have := appendSamples_sigOf rs [] (by simpa using h) hf
  simpa [sigOf] using this

/-! ## Cutting -/

theorem trimFront_flat (s : ℚ) : ∀ (l : List Sample) (f : Sample), f.derivative = 0 → Flat l →
    (trimFront s f l).1.derivative = 0 ∧ Flat (trimFront s f l).2
  | [], f, hf, _ => ⟨hf, by simp [trimFront, Flat]⟩
  | p :: l, f, hf, hl => by
    rw [trimFront]
    split_ifs
    · exact trimFront_flat s l p (hl p (by simp)) fun q hq => hl q (by simp [hq])
    · exact ⟨hf, hl⟩

theorem flat_cons {p : Sample} {l : List Sample} (h : p.derivative = 0) (hl : Flat l) :
    Flat (p :: l) := by
  intro q hq
  rcases List.mem_cons.1 hq with rfl | hq
  · exact h
  · exact hl q hq

theorem resizeFront_flat {x z : Signal} {s : ℚ} (hx : Flat x.samples) (h : resizeFront x s = .ok z) :
    Flat z.samples ∧ z.samples ≠ [] := by
  unfold resizeFront at h
  by_cases h1 : s < x.beginTime
  · rw [if_pos h1] at h
    cases hs : x.samples with
    | nil => simp [hs] at h
    | cons p l =>
      simp only [hs, Except.ok.injEq] at h
      subst h
      exact ⟨flat_cons rfl (hs ▸ hx), by simp⟩
  · rw [if_neg h1] at h
    obtain ⟨a1, a2⟩ := trimFront_flat s x.samples Sample.zero rfl hx
    rcases ht : trimFront s Sample.zero x.samples with ⟨f, _ | ⟨p, l⟩⟩
    · simp only [ht, Except.ok.injEq] at h
      subst h
      exact ⟨flat_cons rfl (by simp [Flat]), by simp⟩
    · rw [ht] at a1 a2
      simp only [ht] at h
      split_ifs at h
      · simp only [Except.ok.injEq] at h
        subst h
        exact ⟨flat_cons a1 a2, by simp⟩
      · simp only [Except.ok.injEq] at h
        subst h
        exact ⟨a2, by simp⟩

theorem resize_flat {x z : Signal} {s t v : ℚ} (hx : Flat x.samples) (h : Signal.resize x s t v = .ok z) :
    Flat z.samples := by
  unfold Signal.resize at h
  by_cases h1 : t < s - tol
  · rw [if_pos h1] at h
    simp only [Except.ok.injEq] at h
    subst h
    simp [Flat]
  · rw [if_neg h1] at h
    cases hf : resizeFront x s with
    | error f => simp [hf, bind, Except.bind] at h
    | ok x1 =>
      obtain ⟨a1, a2⟩ := resizeFront_flat hx hf
      simp only [hf, bind, Except.bind, resizeBack] at h
      have fin : ∀ {l : List Sample}, Flat l → (Except.ok (⟨if l = [] then [⟨s, v, 0⟩] else l, s,
          if t < s then s else t⟩ : Signal) : M Signal) = .ok z → Flat z.samples := by
        intro l hl h
        simp only [Except.ok.injEq] at h
        subst h
        dsimp only
        split_ifs
        · exact flat_cons rfl (by simp [Flat])
        · exact hl
      generalize hT : (if t < s then s else t) = T at h fin
      by_cases h2 : x1.endTime < T
      · rw [if_pos h2] at h
        obtain ⟨b, hb⟩ : ∃ b, x1.samples.getLast? = some b := ⟨_, List.getLast?_eq_some_getLast a2⟩
        simp only [hb] at h
        split_ifs at h with h3
        · exact fin (l := x1.samples ++ [⟨x1.endTime, v, 0⟩]) (by
            intro q hq
            rcases List.mem_append.1 hq with hq | hq
            · exact a1 q hq
            · simp only [List.mem_singleton] at hq; rw [hq]) h
        · exact fin a1 h
      · rw [if_neg h2] at h
        refine fin (l := trimBack T x1.samples) ?_ h
        intro q hq
        unfold trimBack at hq
        rw [List.mem_reverse] at hq
        exact a1 q (List.mem_reverse.1 ((List.dropWhile_sublist _).subset hq))

theorem resize_total {x : Signal} (s t v : ℚ) (hx : x.samples ≠ []) :
    ∃ z, Signal.resize x s t v = .ok z := by
  unfold Signal.resize
  by_cases h1 : t < s - tol
  · rw [if_pos h1]
    exact ⟨_, rfl⟩
  · rw [if_neg h1]
    have : ∃ x1, resizeFront x s = .ok x1 ∧ x1.samples ≠ [] := by
      unfold resizeFront
      by_cases h2 : s < x.beginTime
      · rw [if_pos h2]
        obtain ⟨p, l, hp⟩ := List.exists_cons_of_ne_nil hx
        simp only [hp]
        exact ⟨_, rfl, by simp⟩
      · rw [if_neg h2]
        rcases ht : trimFront s Sample.zero x.samples with ⟨f, _ | ⟨p, l⟩⟩
        · exact ⟨_, rfl, by simp⟩
        · dsimp only
          split_ifs <;> exact ⟨_, rfl, by simp⟩
    obtain ⟨x1, e1, e2⟩ := this
    simp only [e1, bind, Except.bind, resizeBack]
    generalize (if t < s then s else t) = T
    by_cases h2 : x1.endTime < T
    · rw [if_pos h2]
      obtain ⟨b, hb⟩ : ∃ b, x1.samples.getLast? = some b := ⟨_, List.getLast?_eq_some_getLast e2⟩
      simp only [hb]
      split_ifs <;> exact ⟨_, rfl⟩
    · rw [if_neg h2]
      exact ⟨_, rfl⟩

/-! ## Leaves -/

theorem lin_prev_flat : ∀ l : List (ℚ × ℚ), Flat (lin .PREVIOUS l)
  | [] => by simp [lin, Flat]
  | [(t, v)] => by simp [lin, Flat]
  | (t, v) :: (t', v') :: r => by
    simp only [lin]
    exact flat_cons rfl (lin_prev_flat _)

theorem interp_prefix_prev : ∀ {l m : List (ℚ × ℚ)} {q : ℚ × ℚ} {t : ℚ}, Inc (l ++ m) →
    l.getLast? = some q → t ≤ q.1 → interp .PREVIOUS (l ++ m) t = interp .PREVIOUS l t
  | [], _, _, _, _, h, _ => by simp at h
  | [(t0, v0)], [], _, _, _, _, _ => rfl
  | [(t0, v0)], (t1, v1) :: m, q, t, hi, h, ht => by
    simp only [List.getLast?_singleton, Option.some.injEq] at h
    subst h
    have h01 : t0 < t1 := (List.pairwise_cons.1 hi).1 (t1, v1) (by simp)
    simp only at ht
    rcases ht.lt_or_eq with h' | h'
    · simp [interp, h', not_le.2 h']
    · subst h'
      simp [interp, h01]
  | (t0, v0) :: (t1, v1) :: r, m, q, t, hi, h, ht => by
    rw [List.getLast?_cons_cons] at h
    have ih := interp_prefix_prev (l := (t1, v1) :: r) (m := m) (List.pairwise_cons.1 hi).2 h ht
    simp only [List.cons_append] at ih ⊢
    simp only [interp, ih]

namespace Tr

theorem leafTrim_flat {z z' : Signal} {S E t v : ℚ} (hz : Flat z.samples)
    (h : leafTrim S E z t v = .ok z') : Flat z'.samples := by
  unfold leafTrim at h
  have hz1 : Flat (if E < t then { z with endTime := E } else z).samples := by
    split_ifs <;> exact hz
  generalize (if E < t then { z with endTime := E } else z) = w at h hz1
  dsimp only at h
  split_ifs at h <;> exact resize_flat hz1 h

/-- A first run of a leaf in PREVIOUS mode over data that covers `[S, E]`. -/
theorem leaf_prev {g : List ℚ → ℚ} {D : List (List ℚ)} {S E : ℚ} {td : ℕ} (hi : Inc (colf g D))
    (h0 : ∀ row, D.head? = some row → rowTime row ≤ S) (hE : 0 ≤ E) (hSE : S ≤ E)
    (hne : D ≠ []) (h1 : ∀ row, D.getLast? = some row → E ≤ rowTime row) :
    ∃ z0 k t v, readLoop .PREVIOUS g E D Signal.empty td 0 0 = .ok (z0, td + k, t, v) ∧
      (∀ row ∈ D.drop k, E < rowTime row) ∧
      ∀ w, ∃ z, leafTrim S E z0 t w = .ok z ∧
        z.beginTime = S ∧ z.endTime = E ∧ times z.samples = grid D S E ∧
        Steps (fun t => (interp .PREVIOUS (colf g D) t).getD 0) E z.samples := by
  obtain ⟨read, rest, t', v', e1, e2, e3, e4⟩ := readLoop_spec .PREVIOUS g E D [] td 0 0
    (by simpa using hi) (by simp)
  have hread : read ≠ [] := by
    rintro rfl
    simp only [List.nil_append] at e1
    subst e1
    rcases e4 with h | h
    · exact hne h
    · rcases e3 with h3 | ⟨_, h3, _⟩
      · simp [colf] at h3
      · rw [h3] at h; exact absurd h (not_lt.2 hE)
  replace e3 : (colf g read).getLast? = some (t', v') := e3.resolve_right fun h => hread h.1
  have hi' : Inc (colf g read ++ colf g rest) := by rw [← colf_append, ← e1]; exact hi
  have hir : Inc (colf g read) := (List.pairwise_append.1 hi').1
  obtain ⟨r0, rs, hr⟩ := List.exists_cons_of_ne_nil hread
  have hEt : E ≤ t' := by
    rcases e4 with h | h
    · subst h
      simp only [List.append_nil] at e1
      subst e1
      obtain ⟨row, hrow⟩ : ∃ row, D.getLast? = some row :=
        ⟨_, List.getLast?_eq_some_getLast hread⟩
      have : (colf g D).getLast? = some (rowTime row, g row) := by
        simp [colf, List.getLast?_map, hrow]
      rw [e3] at this
      simp only [Option.some.injEq, Prod.mk.injEq] at this
      rw [this.1]; exact h1 row hrow
    · exact h.le
  have hwf : WF (linSig .PREVIOUS (colf g read)) := by
    rw [hr]; exact linSig_wf _ (by rw [hr] at hir; exact hir)
  have hsmp := linSig_samples .PREVIOUS (colf g read)
  have hsinc : SInc (linSig .PREVIOUS (colf g read)).samples := by
    rw [hsmp]; exact lin_sorted _ hir
  have hbeg : (linSig .PREVIOUS (colf g read)).beginTime = rowTime r0 := by
    rw [hr]; exact linSig_begin
  have hend := linSig_end (ip := .PREVIOUS) e3
  have hr0 : rowTime r0 ≤ S := h0 r0 (by rw [e1, hr]; rfl)
  have hks : KeepsSlope (linSig .PREVIOUS (colf g read)) S := by
    right; left
    have hl := lin_getLast? .PREVIOUS (colf g read)
    rw [e3] at hl
    exact ⟨_, by rw [hsmp]; exact List.mem_of_getLast? hl, hSE.trans hEt⟩
  have hrest : ∀ row ∈ rest, E < rowTime row := by
    intro row hrow
    have := (List.pairwise_append.1 hi').2.2 (t', v') (List.mem_of_getLast? e3)
      (rowTime row, g row) (List.mem_map.2 ⟨row, hrow, rfl⟩)
    exact lt_of_le_of_lt hEt this
  refine ⟨_, _, _, _, e2, by simpa [e1] using hrest, fun w => ?_⟩
  obtain ⟨z, c1, c2, c3, c4, c5, c6, c7⟩ := leafTrim_spec (t := t') (v := w)
    hwf.toWF0.wfb hsinc (by rw [hbeg]; exact hr0) hSE
    (by rw [hend]; exact hEt.lt_or_eq.imp id Eq.symm) hks
  have cf : Flat z.samples := leafTrim_flat (by rw [hsmp]; exact lin_prev_flat _) c1
  refine ⟨z, by simpa using c1, c2, c3, ?_, ?_⟩
  · rw [c7, hsmp, lin_times', grid, e1]
    simp only [colf, List.map_map, List.map_append, List.filter_append]
    congr 1
    have hnil : (rest.map rowTime).filter (fun t => decide (S < t ∧ t ≤ E)) = [] := by
      rw [List.filter_eq_nil_iff]
      intro a ha
      obtain ⟨row, hrow, rfl⟩ := List.mem_map.1 ha
      have := hrest row hrow
      simp only [decide_eq_true_eq, not_and, not_le]
      exact fun _ => this
    rw [hnil, List.append_nil]
    rfl
  · obtain ⟨p, l, hl, hp⟩ := c4.exists_cons
    rw [hl]
    refine steps_of_val (hl ▸ c5) (hl ▸ cf) (fun q hq => by rw [← c3]; exact c4.le_end q (hl ▸ hq)) ?_
    intro τ a b
    rw [hp, c2] at a
    rw [← hl, c6 (pl τ) (by simpa using a) (by simpa using b), hsmp]
    have hv := hwf.val (τ := pl τ) (by rw [hbeg]; simpa using hr0.trans a)
    rw [hsmp] at hv
    have := val_lin_pl .PREVIOUS (colf g read) τ hir
    rw [e1, colf_append, interp_prefix_prev hi' e3 (b.trans hEt), ← this, hv]
    rfl

end Tr

/-! ## Expressions -/

/-- What the proofs below assume of the environment of a PREVIOUS evaluation. -/
structure Prev (env : Env) (n : ℕ) : Prop where
  ip : env.ip = .PREVIOUS
  shape : WellShaped n env.data

section
variable {env : Env} {n : ℕ} {S E : ℚ}

/-- An expression node's signal after a run. -/
structure EStep (D : List (List ℚ)) (S E : ℚ) (f : ℚ → ℚ) (z : Signal) : Prop where
  b : z.beginTime = S
  e : z.endTime = E
  times : times z.samples = grid D S E
  steps : Steps f E z.samples

theorem EStep.ne {D : List (List ℚ)} {f : ℚ → ℚ} {z : Signal} (h : EStep D S E f z) :
    z.samples ≠ [] := by
  intro h'
  have := h.times
  rw [h'] at this
  simp [grid] at this

theorem sig_prev (hL : Prev env n) (hc : Covers env.data S E) (hE : 0 ≤ E) (hSE : S ≤ E) {s : St}
    {v : String} {m : Assoc ℕ} {td : Option ℕ} (hf : FreshSt S E s ∧ td = some 0)
    (he : IsExpr n (.sig s v m td)) :
    ∃ T' r, Tr.computeRob env (.sig s v m td) = .ok (T', r) ∧
      EStep env.data S E (expr .PREVIOUS env.data env.params (.sig s v m td)) T'.st.z := by
  obtain ⟨⟨f1, f2, f3, _, _⟩, rfl⟩ := hf
  obtain ⟨i, hi, hi0, hin⟩ := he
  obtain ⟨hne, hh, hl⟩ := hc.facts
  obtain ⟨z0, k, t, w, a1, a7, a8⟩ := Tr.leaf_prev (td := 0)
    (hL.shape.incf fun r => r.getD i 0) hh hE hSE hne hl
  obtain ⟨z, a2, a3, a4, a5, a6⟩ := a8 w
  obtain ⟨p, hp⟩ := front_ok (z := z) (by intro h; rw [h] at a5; simp [grid] at a5)
  obtain ⟨j, rfl⟩ : ∃ j, i = j + 1 := ⟨i - 1, by omega⟩
  refine ⟨.sig { s with z := z } v m (some (0 + k)), p.value, ?_, ⟨a3, a4, a5, ?_⟩⟩
  · have hcond : ¬ (env.data = [] ∧ 0 ≤ E) := fun h => hne h.1
    simp only [Tr.computeRob, Tr.sigRob, hi, Option.getD_some, if_neg hcond, List.drop_zero, hL.ip,
      f1, f2, f3]
    rw [Tr.sigRead_eq _ _ n _ hin _ _ _ _ _ hL.shape.1, a1]
    simp only [bind, Except.bind, a2, hp]
  · simpa [expr, trace, column, hi, Tr.st, colf, rowTime] using a6

theorem interp_const_prev (c : ℚ) : ∀ {D : List (List ℚ)} {t : ℚ}, D ≠ [] →
    (∀ row, D.head? = some row → rowTime row ≤ t) → Inc (colf (fun _ => c) D) →
    interp .PREVIOUS (colf (fun _ => c) D) t = some c
  | [], _, h, _, _ => absurd rfl h
  | [a], t, _, h, _ => by
    have := h a (by simp)
    simp [colf, interp, this]
  | a :: b :: l, t, _, h, hi => by
    have h1 := h a (by simp)
    have hi' := List.pairwise_cons.1 hi
    simp only [colf, List.map_cons, interp, if_neg (not_lt.2 h1)]
    split_ifs with h2
    · simp
    · exact interp_const_prev c (D := b :: l) (by simp) (by simpa using h2) hi'.2

theorem const_prev (hL : Prev env n) (hc : Covers env.data S E) (hE : 0 ≤ E) (hSE : S ≤ E) {s : St}
    {p : String} {v : ℚ} {td : Option ℕ} (hf : FreshSt S E s ∧ td = some 0) :
    ∃ T' r, Tr.computeRob env (.const s p v td) = .ok (T', r) ∧
      EStep env.data S E (expr .PREVIOUS env.data env.params (.const s p v td)) T'.st.z := by
  obtain ⟨⟨f1, f2, f3, _, _⟩, rfl⟩ := hf
  obtain ⟨hne, hh, hl⟩ := hc.facts
  have hinc := hL.shape.incf fun _ => number env.params p v
  obtain ⟨z0, k, t, w, a1, a7, a8⟩ := Tr.leaf_prev (td := 0) hinc hh hE hSE hne hl
  obtain ⟨z, a2, a3, a4, a5, a6⟩ := a8 (number env.params p v)
  refine ⟨.const { s with z := z } p (number env.params p v) (some (0 + k)), number env.params p v,
    ?_, ⟨a3, a4, a5, ?_⟩⟩
  · have hcond : ¬ (env.data = [] ∧ 0 ≤ E) := fun h => hne h.1
    simp only [Tr.computeRob, Tr.constRob, constValue_eq, if_neg hcond, List.drop_zero, hL.ip,
      f1, f2, f3]
    rw [Tr.constRead_eq _ n _ _ _ _ _ _ 0 hL.shape.1, a1]
    simp only [bind, Except.bind, Except.map, a2]
  · refine steps_congr a6 fun x ⟨q, hq, hx⟩ _ => ?_
    have := (times_from hSE a5 q hq).1
    simp only [expr]
    rw [interp_const_prev _ hne (fun row hr => (hh row hr).trans (this.trans hx)) hinc]
    rfl

theorem op_prev {D : List (List ℚ)} {f1 f2 f : ℚ → ℚ} {op : ℚ → ℚ → ℚ} {x y : Signal}
    (hD : (D.map rowTime).Pairwise (· < ·)) (hSE : S ≤ E) (hlast : S = E ∨ RowAt D E)
    (hv : ∀ t, f t = op (f1 t) (f2 t)) (h1 : EStep D S E f1 x) (h2 : EStep D S E f2 y) :
    ∃ z, appendSamples .PREVIOUS Signal.empty (comb (opS op) x.samples y.samples) = .ok z ∧
      EStep D S E f z := by
  have htt := h1.times.trans h2.times.symm
  have tc : times (comb (opS op) x.samples y.samples) = grid D S E := by
    rw [comb_times (opS_time op) htt, h1.times]
  have hP : Steps f E (comb (opS op) x.samples y.samples) :=
    comb_steps (opS_time op) (fun _ _ _ _ => rfl) (fun p q x e1 e2 => by rw [hv, e1, e2]; rfl) htt
      h1.steps h2.steps
  refine ⟨_, appendSamples_prev hP.sinc hP.flat, ?_⟩
  have hglast := grid_last hD hSE hlast
  generalize comb (opS op) x.samples y.samples = c at tc hP
  match c, tc with
  | [], tc => simp [grid] at tc
  | p :: c, tc =>
    obtain ⟨q, hq⟩ : ∃ q, (p :: c).getLast? = some q := ⟨_, List.getLast?_eq_some_getLast (by simp)⟩
    have hqE : q.time = E := by
      have : (STLRom.times (p :: c)).getLast? = some q.time := by
        simp only [STLRom.times, List.getLast?_map, hq]; rfl
      rw [tc, hglast] at this
      exact (Option.some.inj this).symm
    rw [sigOf_eq hq]
    refine ⟨?_, hqE, tc, hP⟩
    have := congrArg List.head? tc
    simpa [grid] using this

theorem expr_prev (hL : Prev env n) (hc : Covers env.data S E) (hE : 0 ≤ E) (hSE : S ≤ E) (T : Tr)
    (he : IsExpr n T) (hf : Fresh env.params S E T)
    (hk : IsLeaf T ∨ S = E ∨ RowAt env.data E) :
    ∃ T' r, Tr.computeRob env T = .ok (T', r) ∧
      EStep env.data S E (expr .PREVIOUS env.data env.params T) T'.st.z := by
  have hD := hL.shape.inc
  induction T with
  | sig s v m td => exact sig_prev hL hc hE hSE hf he
  | const s p v td => exact const_prev hL hc hE hSE hf
  | abs s c ih =>
    have hk' := hk.resolve_left id
    obtain ⟨c', r, a1, a2⟩ := ih he hf.2 (Or.inr hk')
    obtain ⟨z, b1, b2⟩ := op_prev (op := fun a _ => |a|)
      (f := expr .PREVIOUS env.data env.params (.abs s c)) hD hSE hk' (fun _ => rfl) a2 a2
    obtain ⟨p, hp⟩ := front_ok b2.ne
    refine ⟨.abs { s with z := z } c', p.value, ?_, b2⟩
    simp only [Tr.computeRob, a1, bind, Except.bind, hL.ip, absLoop_eq, hf.1.2.2.1, b1, hp]
  | plus s l r ih1 ih2 =>
    have hk' := hk.resolve_left id
    obtain ⟨l', v1, a1, a2⟩ := ih1 he.1 hf.2.1 (Or.inr hk')
    obtain ⟨r', v2, c1, c2⟩ := ih2 he.2 hf.2.2 (Or.inr hk')
    obtain ⟨z, b1, b2⟩ := op_prev (op := (· + ·))
      (f := expr .PREVIOUS env.data env.params (.plus s l r)) hD hSE hk' (fun _ => rfl) a2 c2
    obtain ⟨p, hp⟩ := front_ok b2.ne
    refine ⟨.plus { s with z := z } l' r', p.value, ?_, b2⟩
    simp only [Tr.computeRob, a1, c1, bind, Except.bind, hL.ip, hf.1.2.2.1]
    rw [binLoop_eq _ _ _ _ _ (a2.times.trans c2.times.symm), b1]
    simp only [hp]
  | minus s l r ih1 ih2 =>
    have hk' := hk.resolve_left id
    obtain ⟨l', v1, a1, a2⟩ := ih1 he.1 hf.2.1 (Or.inr hk')
    obtain ⟨r', v2, c1, c2⟩ := ih2 he.2 hf.2.2 (Or.inr hk')
    obtain ⟨z, b1, b2⟩ := op_prev (op := (· - ·))
      (f := expr .PREVIOUS env.data env.params (.minus s l r)) hD hSE hk' (fun _ => rfl) a2 c2
    obtain ⟨p, hp⟩ := front_ok b2.ne
    refine ⟨.minus { s with z := z } l' r', p.value, ?_, b2⟩
    simp only [Tr.computeRob, a1, c1, bind, Except.bind, hL.ip, hf.1.2.2.1]
    rw [binLoop_eq _ _ _ _ _ (a2.times.trans c2.times.symm), b1]
    simp only [hp]
  | mult s l r ih1 ih2 =>
    have hk' := hk.resolve_left id
    obtain ⟨l', v1, a1, a2⟩ := ih1 he.1 hf.2.1 (Or.inr hk')
    obtain ⟨r', v2, c1, c2⟩ := ih2 he.2 hf.2.2 (Or.inr hk')
    obtain ⟨z, b1, b2⟩ := op_prev (op := (· * ·))
      (f := expr .PREVIOUS env.data env.params (.mult s l r)) hD hSE hk' (fun _ => rfl) a2 c2
    obtain ⟨p, hp⟩ := front_ok b2.ne
    refine ⟨.mult { s with z := z } l' r', p.value, ?_, b2⟩
    simp only [Tr.computeRob, a1, c1, bind, Except.bind, hL.ip, hf.1.2.2.1]
    rw [binLoop_eq _ _ _ _ _ (a2.times.trans c2.times.symm), b1]
    simp only [hp]
  | _ => exact he.elim

end

/-! ## Formulas -/

/-- A node's signal after a run in PREVIOUS mode. -/
structure SNode (B : ℚ) (z : Signal) (S E : ℚ) : Prop where
  b : z.beginTime = S
  e : z.endTime = E
  wf : WF0 z
  sinc : SInc z.samples
  flat : S < E → Flat z.samples
  bd : ∀ t, S ≤ t → t ≤ E → -B ≤ z.v (pl t) ∧ z.v (pl t) ≤ B

theorem SNode.le {B : ℚ} {z : Signal} {S E : ℚ} (h : SNode B z S E) : S ≤ E := by
  have := h.wf.begin_le_end
  rwa [h.b, h.e] at this

theorem SNode.wf' {B : ℚ} {z : Signal} {S E : ℚ} (h : SNode B z S E) : WF z := by
  refine ⟨h.wf, fun q hq => ?_⟩
  obtain ⟨p, l, hl, hp⟩ := h.wf.exists_cons
  have hs := h.sinc
  rw [hl] at hs hq
  rw [← hp]
  exact (List.pairwise_cons.1 hs).1 q hq

theorem SNode.front {B : ℚ} {z : Signal} {S E : ℚ} (h : SNode B z S E) :
    ∃ p, z.front = .ok p ∧ p.value = z.v (pl S) := by
  obtain ⟨p, l, hl, hp⟩ := h.wf.exists_cons
  refine ⟨p, by simp [Signal.front, hl], ?_⟩
  rw [← h.b, h.wf'.v_begin hl]

/-- The value just before a time is a value a little earlier. -/
theorem SNode.left {B : ℚ} {z : Signal} {S E : ℚ} (h : SNode B z S E) {u t : ℚ} (hu : S ≤ u)
    (hut : u < t) (ht : t ≤ E) : ∃ r, u ≤ r ∧ r < t ∧ ∀ q, r ≤ q → q < t → z.v (pl q) = z.v (mi t) := by
  have hv := h.wf.val (τ := mi t) (by rw [h.b, pl_le_mi]; exact hu.trans_lt hut)
  rcases hc : cur z.samples (mi t) with _ | p
  · simp [val, hc] at hv
  obtain ⟨l1, l2, h1, h2, h3⟩ := cur_split hc
  have hpr : p.time < t := by simpa using h2
  have hp : ∀ τ, pl p.time ≤ τ → τ ≤ mi t → z.v τ = p.value := by
    intro τ c1 c2
    have : z.v τ = p.valueAt τ.time := by
      apply Signal.v_of_val
      rw [h1]
      refine val_piece (by rw [← h1]; exact h.wf.sorted) c1 fun q hq => ?_
      exact lt_of_le_of_lt c2 (h3 q hq)
    rw [this]
    exact flat_valueAt (h.flat (hu.trans_lt (hut.trans_le ht)) p (by rw [h1]; simp)) _
  refine ⟨max u p.time, le_max_left _ _, max_lt hut hpr, fun q c1 c2 => ?_⟩
  rw [hp (pl q) (by simpa using (le_max_right _ _).trans c1) (by simpa using c2), hp (mi t) h2 le_rfl]

theorem SNode.bdp {B : ℚ} {z : Signal} {S E : ℚ} (h : SNode B z S E) {σ : Pt} (h1 : pl S ≤ σ)
    (h2 : σ ≤ pl E) : -B ≤ z.v σ ∧ z.v σ ≤ B := by
  rcases Pt.cases σ with e | e
  · rw [e] at h1 h2 ⊢
    exact h.bd _ (by simpa using h1) (by simpa using h2)
  · rw [e] at h1 h2 ⊢
    rw [pl_le_mi] at h1
    rw [le_pl_iff, mi_time] at h2
    obtain ⟨r, r1, r2, r3⟩ := h.left le_rfl h1 h2
    rw [← r3 r le_rfl r2]
    exact h.bd r r1 (r2.le.trans h2)

theorem SNode.not {B : ℚ} {z : Signal} {S E : ℚ} (h : SNode B z S E) : SNode B (computeNot z) S E := by
  refine ⟨h.b, h.e, h.wf.not, by rw [computeNot_samples]; exact h.sinc.negs,
    fun h' => Flat.not (h.flat h'), fun t a b => ?_⟩
  have := h.bd t a b
  rw [v_not]
  constructor <;> linarith

theorem SNode.settled {B : ℚ} {z : Signal} {S E : ℚ} {f : ℚ → EReal} (h : SNode B z S E)
    (hf : Is z S E f) (hs : Settles f S E) (hSE : S < E) : z.v (mi E) = z.v (pl E) := by
  obtain ⟨r, r1, r2, r3⟩ := hs hSE
  obtain ⟨q, q1, q2, q3⟩ := h.left r1 r2 le_rfl
  rw [← q3 q le_rfl q2]
  apply er_inj
  rw [← hf q (r1.trans q1) q2.le, ← hf E hSE.le le_rfl]
  exact r3 q q1 q2.le

theorem SNode.and {B : ℚ} {x y : Signal} {S E : ℚ} (hx : SNode B x S E) (hy : SNode B y S E)
    (ex : S < E → x.v (mi E) = x.v (pl E)) (ey : S < E → y.v (mi E) = y.v (pl E)) :
    ∃ z, computeAndM x y = .ok z ∧ SNode B z S E ∧
      ∀ t, S ≤ t → t ≤ E → z.v (pl t) = min (x.v (pl t)) (y.v (pl t)) := by
  rcases hx.le.lt_or_eq with h | h
  · have hlt : max x.beginTime y.beginTime < min x.endTime y.endTime := by
      rw [hx.b, hy.b, hx.e, hy.e, max_self, min_self]; exact h
    obtain ⟨z, h1, h2⟩ := computeAndM_spec_lt hx.wf hy.wf hlt
    rw [hx.b, hy.b, hx.e, hy.e, max_self, min_self] at h2
    obtain ⟨h3, h4⟩ := computeAndM_step hx.wf hy.wf (hx.flat h) (hy.flat h) hx.sinc hy.sinc hlt h1
    have hv : ∀ t, S ≤ t → t ≤ E → z.v (pl t) = min (x.v (pl t)) (y.v (pl t)) := by
      intro t a b
      rcases b.lt_or_eq with b | rfl
      · exact h2.val _ (by simpa using a) (by simpa using b)
      · rw [h2.last h, h2.val _ (by simpa using h) le_rfl, ex h, ey h]
    refine ⟨z, h1, ⟨h2.begin_eq, h2.end_eq, h2.wf.toWF0, h4, fun _ => h3, fun t a b => ?_⟩, hv⟩
    rw [hv t a b]
    exact ⟨le_min (hx.bd t a b).1 (hy.bd t a b).1, (min_le_left _ _).trans (hx.bd t a b).2⟩
  · obtain ⟨z, h1, h2⟩ := computeAndM_spec_eq hx.wf' hy.wf' (by rw [hx.b, hy.b])
      (by rw [hx.e, hy.e, min_self, hx.b, h])
    rw [hx.b] at h2
    have hv : ∀ t, S ≤ t → t ≤ E → z.v (pl t) = min (x.v (pl t)) (y.v (pl t)) := by
      intro t a b
      obtain rfl : t = S := le_antisymm (b.trans h.ge) a
      exact h2.point rfl
    refine ⟨z, h1, ⟨h2.begin_eq, h2.end_eq.trans h, h2.wf.toWF0, ?_, fun h' => absurd h h'.ne,
      fun t a b => ?_⟩, hv⟩
    · obtain ⟨p, l, hl, hp⟩ := h2.wf.exists_cons
      cases l with
      | nil => rw [hl]; simp [SInc]
      | cons q l =>
        have a := h2.wf.strict q (by simp [hl])
        have b := h2.wf.le_end q (by simp [hl])
        rw [h2.begin_eq] at a
        rw [h2.end_eq] at b
        exact absurd a (not_lt.2 b)
    · rw [hv t a b]
      exact ⟨le_min (hx.bd t a b).1 (hy.bd t a b).1, (min_le_left _ _).trans (hx.bd t a b).2⟩

theorem SNode.or {B : ℚ} {x y : Signal} {S E : ℚ} (hx : SNode B x S E) (hy : SNode B y S E)
    (ex : S < E → x.v (mi E) = x.v (pl E)) (ey : S < E → y.v (mi E) = y.v (pl E)) :
    ∃ z, computeOrM x y = .ok z ∧ SNode B z S E ∧
      ∀ t, S ≤ t → t ≤ E → z.v (pl t) = max (x.v (pl t)) (y.v (pl t)) := by
  obtain ⟨z, h1, h2, h3⟩ := hx.not.and hy.not (fun h => by rw [v_not, v_not, ex h])
    (fun h => by rw [v_not, v_not, ey h])
  refine ⟨computeNot z, ?_, h2.not, fun t a b => ?_⟩
  · rw [computeAndM_not] at h1
    exact except_map_computeNot h1
  · rw [v_not, h3 t a b, v_not, v_not, min_neg_neg, neg_neg]

theorem Settles.not {f : ℚ → EReal} {S E : ℚ} (h : Settles f S E) : Settles (fun t => -f t) S E := by
  intro h'
  obtain ⟨r, r1, r2, r3⟩ := h h'
  exact ⟨r, r1, r2, fun t a b => congrArg Neg.neg (r3 t a b)⟩

/-- The outcome of evaluating a formula node in PREVIOUS mode. -/
structure StepOutcome (env : Env) (S E : ℚ) (T T' : Tr) (r : ℚ) : Prop where
  node : SNode env.B T'.st.z S E
  is : Is T'.st.z S E (rob .PREVIOUS env.data env.params T)
  val : r = T'.st.z.v (pl S)

theorem snode_of_steps {f : ℚ → ℚ} {S E B : ℚ} {l : List Sample} (hl : l ≠ [])
    (hp : Steps f E l) (hS : ∀ p, l.head? = some p → p.time = S)
    (hB : ∀ t, S ≤ t → t ≤ E → -B ≤ f t ∧ f t ≤ B) :
    SNode B ⟨l, S, E⟩ S E ∧ Is ⟨l, S, E⟩ S E (fun t => er (f t)) := by
  obtain ⟨p, l', rfl⟩ := List.exists_cons_of_ne_nil hl
  have hpS := hS p rfl
  have hv : ∀ t, S ≤ t → t ≤ E → (⟨p :: l', S, E⟩ : Signal).v (pl t) = f t := by
    intro τ a b
    apply Signal.v_of_val
    exact hp.val τ (by rw [hpS]; exact a) b
  refine ⟨⟨rfl, rfl, ⟨by simp, by simpa using hpS, hp.sinc.sorted, fun q hq => hp.le_end q hq⟩,
    hp.sinc, fun _ => hp.flat, fun t a b => ?_⟩, fun t a b => ?_⟩
  · rw [hv _ a b]
    exact hB t a b
  · rw [hv _ a b]

section
variable {env : Env} {n : ℕ}

theorem atom_prev_flat (hL : Prev env n) (hsem : env.sem = .SPACE) {S E : ℚ} (hc : Covers env.data S E)
    (hE : 0 ≤ E) (hSE : S ≤ E) {s : St} {k : Cmp} {l r : Tr}
    (hF : IsFormula n env.params (.atom s k l r)) (hf : Fresh env.params S E (.atom s k l r))
    (hk : IsLeaf l ∧ IsLeaf r ∨ S = E ∨ RowAt env.data E)
    (hB : AtomsWithin .PREVIOUS env.B env.data env.params S E (.atom s k l r)) :
    ∃ T' v, Tr.computeRob env (.atom s k l r) = .ok (T', v) ∧
      StepOutcome env S E (.atom s k l r) T' v ∧ Flat T'.st.z.samples := by
  obtain ⟨l', v1, a1, a2⟩ := expr_prev hL hc hE hSE l hF.1 hf.2.1 (hk.imp (·.1) id)
  obtain ⟨r', v2, b1, b2⟩ := expr_prev hL hc hE hSE r hF.2 hf.2.2 (hk.imp (·.2) id)
  obtain ⟨f1, f2, f3, f4, f5⟩ := hf.1
  have ht := a2.times.trans b2.times.symm
  have hP : Steps (fun t => margin k (expr .PREVIOUS env.data env.params l t)
      (expr .PREVIOUS env.data env.params r t)) E (comb (atomS k) l'.st.z.samples r'.st.z.samples) := by
    refine comb_steps (atomS_time k) ?_ ?_ ht a2.steps b2.steps
    · intro p q e1 e2
      cases k <;> simp [atomS, e1, e2]
    · intro p q x e1 e2
      rw [e1, e2]
      cases k <;> rfl
  have hT : times (comb (atomS k) l'.st.z.samples r'.st.z.samples) = grid env.data S E := by
    rw [comb_times (atomS_time k) ht, a2.times]
  obtain ⟨hne, hhd⟩ := times_head hT
  obtain ⟨hN, hI⟩ := snode_of_steps hne hP hhd hB
  set L := comb (atomS k) l'.st.z.samples r'.st.z.samples with hLdef
  obtain ⟨p, m, hpm⟩ := List.exists_cons_of_ne_nil hne
  obtain ⟨q, hq⟩ : ∃ q, (p :: m).getLast? = some q := ⟨_, List.getLast?_eq_some_getLast (by simp)⟩
  have hz : Tr.atomRob env k s.z l'.st.z r'.st.z = .ok ⟨L, S, E⟩ := by
    unfold Tr.atomRob
    rw [atomLoop_eq, hL.ip, f3, appendSamples_prev hP.sinc hP.flat, hsem]
    show Except.ok _ = _
    rw [hpm, sigOf_eq hq, ← hpm, a2.e, hhd p (by rw [hpm]; rfl)]
  obtain ⟨p', hp', hpv⟩ := hN.front
  refine ⟨.atom { s with z := ⟨L, S, E⟩ } k l' r', p'.value, ?_, ⟨hN, hI, hpv⟩, hP.flat⟩
  simp only [Tr.computeRob, a1, b1, bind, Except.bind, hz, hp']

theorem atom_prev (hL : Prev env n) (hsem : env.sem = .SPACE) {S E : ℚ} (hc : Covers env.data S E)
    (hE : 0 ≤ E) (hSE : S ≤ E) {s : St} {k : Cmp} {l r : Tr}
    (hF : IsFormula n env.params (.atom s k l r)) (hf : Fresh env.params S E (.atom s k l r))
    (hk : IsLeaf l ∧ IsLeaf r ∨ S = E ∨ RowAt env.data E)
    (hB : AtomsWithin .PREVIOUS env.B env.data env.params S E (.atom s k l r)) :
    ∃ T' v, Tr.computeRob env (.atom s k l r) = .ok (T', v) ∧
      StepOutcome env S E (.atom s k l r) T' v := by
  obtain ⟨T', v, h1, h2, _⟩ := atom_prev_flat hL hsem hc hE hSE hF hf hk hB
  exact ⟨T', v, h1, h2⟩

/-- The supremum over a window of a step signal. -/
theorem SNode.sup {x : Signal} {s e B v : ℚ} {f : ℚ → EReal} (hx : SNode B x s e)
    (hf : Is x s e f) (h : Top x.v (pl s) (pl e) v) :
    ⨆ r ∈ Set.Icc s e, f r = er v := by
  refine le_antisymm (iSup₂_le fun r hr => ?_) ?_
  · rw [hf r hr.1 hr.2, er_le]
    exact h.2 _ (by simpa using hr.1) (by simpa using hr.2)
  · obtain ⟨σ, h1, h2, h3⟩ := h.1
    have key : ∀ r, s ≤ r → r ≤ e → x.v (pl r) = v → er v ≤ ⨆ r ∈ Set.Icc s e, f r := by
      intro r a b c
      rw [← c, ← hf r a b]
      exact le_iSup₂_of_le r ⟨a, b⟩ le_rfl
    rcases Pt.cases σ with e | e
    · rw [e] at h1 h2 h3
      exact key _ (by simpa using h1) (by simpa using h2) h3
    · rw [e] at h1 h2 h3
      rw [pl_le_mi] at h1
      rw [le_pl_iff, mi_time] at h2
      obtain ⟨r, r1, r2, r3⟩ := hx.left le_rfl h1 h2
      exact key r r1 (r2.le.trans h2) (by rw [r3 r le_rfl r2, h3])

theorem SNode.inf {x : Signal} {s e B v : ℚ} {f : ℚ → EReal} (hx : SNode B x s e)
    (hf : Is x s e f) (h : Bot x.v (pl s) (pl e) v) :
    ⨅ r ∈ Set.Icc s e, f r = er v := by
  refine le_antisymm ?_ (le_iInf₂ fun r hr => ?_)
  · obtain ⟨σ, h1, h2, h3⟩ := h.1
    have key : ∀ r, s ≤ r → r ≤ e → x.v (pl r) = v → ⨅ r ∈ Set.Icc s e, f r ≤ er v := by
      intro r a b c
      rw [← c, ← hf r a b]
      exact iInf₂_le_of_le r ⟨a, b⟩ le_rfl
    rcases Pt.cases σ with e | e
    · rw [e] at h1 h2 h3
      exact key _ (by simpa using h1) (by simpa using h2) h3
    · rw [e] at h1 h2 h3
      rw [pl_le_mi] at h1
      rw [le_pl_iff, mi_time] at h2
      obtain ⟨r, r1, r2, r3⟩ := hx.left le_rfl h1 h2
      exact key r r1 (r2.le.trans h2) (by rw [r3 r le_rfl r2, h3])
  · rw [hf r hr.1 hr.2, er_le]
    exact h.2 _ (by simpa using hr.1) (by simpa using hr.2)

/-- Cutting a signal down to its first point. -/
theorem point_snode {z : Signal} {S B v : ℚ} (hz : WF z) (hb : z.beginTime = S)
    (hv : -B ≤ z.v (pl S) ∧ z.v (pl S) ≤ B) :
    ∃ z', Signal.resize z S S v = .ok z' ∧ SNode B z' S S ∧ z'.v (pl S) = z.v (pl S) := by
  obtain ⟨z', h1, h2, h3, h4, h5, h6, h7, _⟩ := resize_inside (x := z) (s := S) (t := S) v hz.toWF0.wfb hb.le
    le_rfl (by rw [← hb]; exact hz.begin_le_end) (Or.inl hb)
  have hpre := h7 hb
  have hval : z'.v (pl S) = z.v (pl S) := by
    unfold Signal.v
    rw [h5 (pl S) le_rfl le_rfl]
  refine ⟨z', h1, ⟨h2, h3, h4, ?_, fun h => absurd h (lt_irrefl _), fun t a b => ?_⟩, hval⟩
  · obtain ⟨p, l, hl, hp⟩ := h4.exists_cons
    cases l with
    | nil => rw [hl]; simp [SInc]
    | cons q l =>
      exfalso
      have b := h4.le_end q (by simp [hl])
      rw [h3] at b
      obtain ⟨suf, hsuf⟩ := hpre
      have := hz.strict q (by rw [← hsuf, hl]; simp)
      rw [hb] at this
      exact absurd this (not_lt.2 b)
  · obtain rfl : t = S := le_antisymm b a
    rw [hval]; exact hv

theorem SNode.evz {old x : Signal} {B a b S : ℚ} {f : ℚ → EReal} (hx : SNode B x (S + a) (S + b))
    (hf : Is x (S + a) (S + b) f) (ha : 0 ≤ a) (hab : a ≤ b) :
    ∃ z, computeTimedEventually B old x a b = .ok z ∧ S ≤ z.endTime ∧
      ∃ z', Signal.resize z S S 0 = .ok z' ∧ SNode B z' S S ∧
        Is z' S S (fun t => ⨆ r ∈ Set.Icc (t + a) (t + b), f r) := by
  obtain ⟨z, h1, h2, h3, h4, h5, _⟩ := computeTimedEventually_spec (B := B) (old := old) hx.wf
    (Or.inl hx.sinc) ha hab (fun h => by rw [hx.b, hx.e] at h; linarith)
    (fun σ c d => (hx.bdp (by rw [← hx.b]; exact c) (by rw [← hx.e]; exact d)).1)
  rw [hx.b, add_sub_cancel_right] at h2
  rw [hx.e] at h3
  have hT := h5 (pl S) (by rw [h2]) (by rw [h3, pl_le_pl]; linarith)
    (fun h => by rw [hx.b, hx.e] at h; linarith)
  rw [hx.e] at hT
  simp only [pl_shift, min_self] at hT
  have hs := hx.sup hf hT
  have hbd : -B ≤ z.v (pl S) ∧ z.v (pl S) ≤ B := by
    obtain ⟨σ, k1, k2, k3⟩ := hT.1
    rw [← k3]
    exact hx.bdp k1 k2
  obtain ⟨z', c1, c2, c3⟩ := point_snode (v := 0) (h4.2 hx.wf') h2 hbd
  refine ⟨z, h1, by rw [h3]; linarith, z', c1, c2, fun t c d => ?_⟩
  obtain rfl : t = S := le_antisymm d c
  rw [c3]; exact hs

theorem SNode.alwz {old x : Signal} {B a b S : ℚ} {f : ℚ → EReal} (hx : SNode B x (S + a) (S + b))
    (hf : Is x (S + a) (S + b) f) (ha : 0 ≤ a) (hab : a ≤ b) :
    ∃ z, computeTimedGlobally B old x a b = .ok z ∧ S ≤ z.endTime ∧
      ∃ z', Signal.resize z S S 0 = .ok z' ∧ SNode B z' S S ∧
        Is z' S S (fun t => ⨅ r ∈ Set.Icc (t + a) (t + b), f r) := by
  obtain ⟨z, h1, h2, h3, h4, h5, _⟩ := computeTimedGlobally_spec (B := B) (old := old) hx.wf
    (Or.inl hx.sinc) ha hab (fun h => by rw [hx.b, hx.e] at h; linarith)
    (fun σ c d => (hx.bdp (by rw [← hx.b]; exact c) (by rw [← hx.e]; exact d)).2)
  rw [hx.b, add_sub_cancel_right] at h2
  rw [hx.e] at h3
  have hT := h5 (pl S) (by rw [h2]) (by rw [h3, pl_le_pl]; linarith)
    (fun h => by rw [hx.b, hx.e] at h; linarith)
  rw [hx.e] at hT
  simp only [pl_shift, min_self] at hT
  have hs := hx.inf hf hT
  have hbd : -B ≤ z.v (pl S) ∧ z.v (pl S) ≤ B := by
    obtain ⟨σ, k1, k2, k3⟩ := hT.1
    rw [← k3]
    exact hx.bdp k1 k2
  obtain ⟨z', c1, c2, c3⟩ := point_snode (v := 0) (h4.2 hx.wf') h2 hbd
  refine ⟨z, h1, by rw [h3]; linarith, z', c1, c2, fun t c d => ?_⟩
  obtain rfl : t = S := le_antisymm d c
  rw [c3]; exact hs

end

end STLRom
