import Verif.Spec.Interp
import Verif.Proofs.Bridge

/-!
# `append_sample` builds the interpolated signal
-/

namespace STLRom
open Signal

/-- The samples of the interpolation of a list of pairs. -/
def lin (ip : Interpol) : List (ℚ × ℚ) → List Sample
  | [] => []
  | [(t, v)] => [⟨t, v, 0⟩]
  | (t, v) :: (t', v') :: r =>
    ⟨t, v, match ip with
      | .LINEAR => (v' - v) / (t' - t)
      | .PREVIOUS => 0⟩ :: lin ip ((t', v') :: r)

/-- Times strictly increase along a list of pairs. -/
abbrev Inc (l : List (ℚ × ℚ)) : Prop := l.Pairwise fun p q => p.1 < q.1

theorem lin_times (ip : Interpol) : ∀ l, (lin ip l).map (fun p => (p.time, p.value)) = l
  | [] => rfl
  | [(t, v)] => rfl
  | (t, v) :: (t', v') :: r => by
    simp only [lin, List.map_cons, lin_times ip ((t', v') :: r)]

theorem lin_length (ip : Interpol) (l : List (ℚ × ℚ)) : (lin ip l).length = l.length := by
  conv_rhs => rw [← lin_times ip l]
  simp

theorem lin_ne_nil (ip : Interpol) {l : List (ℚ × ℚ)} (h : l ≠ []) : lin ip l ≠ [] := by
  intro h'
  have := lin_length ip l
  rw [h'] at this
  exact h (List.length_eq_zero_iff.1 this.symm)

theorem lin_mem {ip : Interpol} {l : List (ℚ × ℚ)} {p : Sample} (h : p ∈ lin ip l) :
    (p.time, p.value) ∈ l := by
  rw [← lin_times ip l]
  exact List.mem_map.2 ⟨p, h, rfl⟩

theorem lin_sorted (ip : Interpol) {l : List (ℚ × ℚ)} (h : Inc l) :
    (lin ip l).Pairwise fun p q => p.time < q.time := by
  have h' : Inc ((lin ip l).map fun p => (p.time, p.value)) := by rw [lin_times]; exact h
  exact (List.pairwise_map (f := fun p : Sample => (p.time, p.value))).1 h'

theorem getLast?_eq_some_append {α : Type*} {l : List α} {b : α} (h : l.getLast? = some b) :
    ∃ l', l = l' ++ [b] := by
  rcases List.eq_nil_or_concat l with h' | ⟨l', c, h'⟩
  · simp [h'] at h
  · subst h'
    simp at h
    exact ⟨l', by simp [h]⟩

theorem getLast?_cons' {α : Type*} (a : α) {l : List α} (h : l ≠ []) :
    (a :: l).getLast? = l.getLast? := by
  obtain ⟨b, r, rfl⟩ := List.exists_cons_of_ne_nil h
  exact List.getLast?_cons_cons

theorem lin_getLast? (ip : Interpol) : ∀ l : List (ℚ × ℚ),
    (lin ip l).getLast? = l.getLast?.map fun q => (⟨q.1, q.2, 0⟩ : Sample)
  | [] => rfl
  | [(t, v)] => rfl
  | (t, v) :: (t', v') :: r => by
    have := lin_getLast? ip ((t', v') :: r)
    have hne := lin_ne_nil ip (l := (t', v') :: r) (by simp)
    simp only [lin]
    rw [getLast?_cons' _ hne, this, List.getLast?_cons_cons]

theorem setBack_cons (p : Sample) {l : List Sample} (h : l ≠ []) (d : ℚ) :
    setBackDerivative (p :: l) d = p :: setBackDerivative l d := by
  unfold setBackDerivative
  rw [getLast?_cons' _ h]
  cases hl : l.getLast? with
  | none => rw [List.getLast?_eq_none_iff] at hl
  | some q => simp [List.dropLast_cons_of_ne_nil h]

theorem lin_snoc_linear : ∀ (l : List (ℚ × ℚ)) (q : ℚ × ℚ) (t v : ℚ), l.getLast? = some q →
    lin .LINEAR (l ++ [(t, v)]) =
      setBackDerivative (lin .LINEAR l) ((v - q.2) / (t - q.1)) ++ [⟨t, v, 0⟩]
  | [], q, t, v, h => by simp at h
  | [(s, u)], q, t, v, h => by
    simp only [List.getLast?_singleton, Option.some.injEq] at h
    subst h
    simp [lin, setBackDerivative]
  | (s, u) :: (s', u') :: r, q, t, v, h => by
    rw [List.getLast?_cons_cons] at h
    have ih := lin_snoc_linear ((s', u') :: r) q t v h
    simp only [List.cons_append] at ih ⊢
    simp only [lin]
    rw [ih, setBack_cons _ (lin_ne_nil _ (by simp)), List.cons_append]

theorem lin_snoc_previous : ∀ (l : List (ℚ × ℚ)) (t v : ℚ),
    lin .PREVIOUS (l ++ [(t, v)]) = lin .PREVIOUS l ++ [⟨t, v, 0⟩]
  | [], t, v => rfl
  | [(s, u)], t, v => by simp [lin]
  | (s, u) :: (s', u') :: r, t, v => by
    have ih := lin_snoc_previous ((s', u') :: r) t v
    simp only [List.cons_append] at ih ⊢
    simp only [lin]
    rw [ih, List.cons_append]

/-- The signal of a non-empty list of pairs. -/
def linSig (ip : Interpol) (l : List (ℚ × ℚ)) : Signal :=
  match l, l.getLast? with
  | p :: _, some q => ⟨lin ip l, p.1, q.1⟩
  | _, _ => Signal.empty

theorem linSig_samples (ip : Interpol) (l : List (ℚ × ℚ)) : (linSig ip l).samples = lin ip l := by
  cases l with
  | nil => rfl
  | cons p l => simp [linSig, List.getLast?_eq_some_getLast]

theorem linSig_cons (ip : Interpol) (p : ℚ × ℚ) (l : List (ℚ × ℚ)) :
    linSig ip (p :: l) = ⟨lin ip (p :: l), p.1, ((p :: l).getLast (by simp)).1⟩ := by
  simp [linSig, List.getLast?_eq_some_getLast]

theorem linSig_end {ip : Interpol} {l : List (ℚ × ℚ)} {q : ℚ × ℚ} (h : l.getLast? = some q) :
    (linSig ip l).endTime = q.1 := by
  cases l with
  | nil => simp at h
  | cons p l => simp only [linSig, h]

theorem linSig_begin {ip : Interpol} {p : ℚ × ℚ} {l : List (ℚ × ℚ)} :
    (linSig ip (p :: l)).beginTime = p.1 := by
  rw [linSig_cons]

/-- One append. -/
theorem appendSample0_linSig (ip : Interpol) (l : List (ℚ × ℚ)) (t v : ℚ) :
    appendSample0 ip (linSig ip l) t v = .ok (linSig ip (match l.getLast? with
      | none => [(t, v)]
      | some q => if q.1 < t then l ++ [(t, v)] else l)) := by
  cases l with
  | nil =>
    cases ip <;> simp [appendSample0, appendSample, linSig, Signal.empty, lin]
  | cons p l =>
    obtain ⟨q, hq⟩ : ∃ q, (p :: l).getLast? = some q :=
      ⟨_, List.getLast?_eq_some_getLast (by simp)⟩
    simp only [hq]
    have hne := lin_ne_nil ip (l := p :: l) (by simp)
    have hs := linSig_samples ip (p :: l)
    have he := linSig_end (ip := ip) hq
    by_cases h : q.1 < t
    · rw [if_pos h]
      have hcond : ¬ (t ≤ (linSig ip (p :: l)).endTime ∧ (linSig ip (p :: l)).samples ≠ []) := by
        rw [he]; intro h'; exact absurd h (not_lt.2 h'.1)
      have hlast : (p :: (l ++ [(t, v)])).getLast? = some (t, v) := by
        rw [getLast?_cons' _ (by simp)]; simp
      have hR : linSig ip (p :: l ++ [(t, v)]) = ⟨lin ip (p :: l ++ [(t, v)]), p.1, t⟩ := by
        simp only [List.cons_append, linSig, hlast]
      rw [hR]
      rw [appendSample0, appendSample.eq_def, if_neg hcond]
      simp only [hs, hne, if_false]
      cases ip with
      | PREVIOUS =>
        simp only [lin_snoc_previous, linSig_begin]
      | LINEAR =>
        simp only [lin_getLast?, hq, Option.map_some, qdiv, sub_eq_zero, if_neg h.ne', bind,
          Except.bind, linSig_begin]
        rw [lin_snoc_linear _ q t v hq]
    · rw [if_neg h]
      have hcond : t ≤ (linSig ip (p :: l)).endTime ∧ (linSig ip (p :: l)).samples ≠ [] := by
        rw [he, hs]; exact ⟨not_lt.1 h, hne⟩
      simp only [appendSample0, appendSample, if_pos hcond]

/-- Appending a list of pairs. -/
theorem appends_linSig (ip : Interpol) (ps : List (ℚ × ℚ)) : ∀ l : List (ℚ × ℚ),
    ps.foldlM (fun x p => appendSample0 ip x p.1 p.2) (linSig ip l) =
      .ok (linSig ip (ps.foldl (fun acc p => match acc.getLast? with
        | none => [p]
        | some q => if q.1 < p.1 then acc ++ [p] else acc) l)) := by
  induction ps with
  | nil => intro l; rfl
  | cons p ps ih =>
    intro l
    simp only [List.foldlM_cons, List.foldl_cons, appendSample0_linSig, bind, Except.bind]
    exact ih _

theorem appends_eq (ip : Interpol) (ps : List (ℚ × ℚ)) :
    ps.foldlM (fun x p => appendSample0 ip x p.1 p.2) Signal.empty =
      .ok (linSig ip (Spec.accepted ps)) := by
  have := appends_linSig ip ps []
  exact this

theorem accepted_inc_aux (ps : List (ℚ × ℚ)) : ∀ l : List (ℚ × ℚ), Inc l →
    Inc (ps.foldl (fun acc p => match acc.getLast? with
        | none => [p]
        | some q => if q.1 < p.1 then acc ++ [p] else acc) l) := by
  induction ps with
  | nil => intro l h; exact h
  | cons p ps ih =>
    intro l h
    rw [List.foldl_cons]
    apply ih
    cases hl : l.getLast? with
    | none => simp [Inc]
    | some q =>
      simp only
      split_ifs with hq
      · refine List.pairwise_append.2 ⟨h, by simp, ?_⟩
        intro r hr s hs
        simp only [List.mem_singleton] at hs
        subst hs
        obtain ⟨l', rfl⟩ : ∃ l', l = l' ++ [q] := by
          rcases List.eq_nil_or_concat l with h | ⟨l', c, h⟩
          · simp [h] at hl
          · subst h
            simp at hl
            exact ⟨l', by simp [hl]⟩
        rcases List.mem_append.1 hr with hr | hr
        · exact ((List.pairwise_append.1 h).2.2 r hr q (by simp)).trans hq
        · simp only [List.mem_singleton] at hr
          rw [hr]; exact hq
      · exact h

theorem accepted_inc (ps : List (ℚ × ℚ)) : Inc (Spec.accepted ps) :=
  accepted_inc_aux ps [] (by simp [Inc])

theorem val_cons_skip {p q : Sample} {l : List Sample} {τ : Pt} (h : pl q.time ≤ τ) :
    val (p :: q :: l) τ = val (q :: l) τ := by
  have : ∃ r, cur (q :: l) τ = some r := by
    rcases hc : cur (q :: l) τ with _ | r
    · rw [cur_eq_none] at hc
      exact absurd h (not_le.2 (hc q (by simp)))
    · exact ⟨r, rfl⟩
  obtain ⟨r, hr⟩ := this
  simp only [val]
  rw [show cur (p :: q :: l) τ = (cur (q :: l) τ).or _ from rfl, hr, Option.some_or]

/-- The interpolation at a time, from the right. -/
theorem val_lin_pl (ip : Interpol) : ∀ (l : List (ℚ × ℚ)) (t : ℚ), Inc l →
    val (lin ip l) (pl t) = Spec.interp ip l t
  | [], t, _ => rfl
  | [(t0, v0)], t, _ => by
    by_cases h : t0 ≤ t <;> simp [lin, Spec.interp, val, cur, h, Sample.valueAt]
  | (t0, v0) :: (t1, v1) :: r, t, h => by
    have h' := List.pairwise_cons.1 h
    have h01 : t0 < t1 := h'.1 (t1, v1) (by simp)
    have ih := val_lin_pl ip ((t1, v1) :: r) t h'.2
    have hfrom : ∀ q ∈ lin ip ((t1, v1) :: r), t1 ≤ q.time := by
      intro q hq
      rcases List.mem_cons.1 (lin_mem hq) with he | he
      · simp at he; exact he.1.ge
      · exact ((List.pairwise_cons.1 h'.2).1 _ he).le
    rw [Spec.interp.eq_def]
    simp only
    split_ifs with h1 h2
    · simp only [val, Option.map_eq_none_iff]
      rw [cur_eq_none]
      intro p hp
      simp only [lin] at hp
      rcases List.mem_cons.1 hp with rfl | hp
      · simpa using h1
      · simpa using lt_of_lt_of_le (h1.trans h01) (hfrom p hp)
    · simp only [lin]
      rw [val_cons_of_lt]
      · cases ip <;> simp [Sample.valueAt]
      · intro q hq; simpa using lt_of_lt_of_le h2 (hfrom q hq)
      · simpa using not_lt.1 h1
    · rw [← ih]
      cases r with
      | nil => simp only [lin]; exact val_cons_skip (by simpa using not_lt.1 h2)
      | cons q r => obtain ⟨t2, v2⟩ := q; simp only [lin]; exact val_cons_skip (by simpa using not_lt.1 h2)

/-- With linear interpolation there are no jumps. -/
theorem val_lin_mi : ∀ (l : List (ℚ × ℚ)) (t : ℚ), Inc l → (∀ p, l.head? = some p → p.1 < t) →
    val (lin .LINEAR l) (mi t) = val (lin .LINEAR l) (pl t)
  | [], t, _, _ => rfl
  | [(t0, v0)], t, _, h0 => by
    have h0 : t0 < t := h0 (t0, v0) (by simp)
    simp [lin, val, cur, h0, h0.le, Sample.valueAt]
  | (t0, v0) :: (t1, v1) :: r, t, h, h0 => by
    have h' := List.pairwise_cons.1 h
    have h0' : t0 < t := h0 (t0, v0) (by simp)
    clear h0
    rename' h0' => h0
    have h01 : t0 < t1 := h'.1 (t1, v1) (by simp)
    have hfrom : ∀ q ∈ lin .LINEAR ((t1, v1) :: r), t1 ≤ q.time := by
      intro q hq
      rcases List.mem_cons.1 (lin_mem hq) with he | he
      · simp at he; exact he.1.ge
      · exact ((List.pairwise_cons.1 h'.2).1 _ he).le
    have hcons : ∀ τ, pl t1 ≤ τ → val (lin .LINEAR ((t0, v0) :: (t1, v1) :: r)) τ =
        val (lin .LINEAR ((t1, v1) :: r)) τ := by
      intro τ hτ
      cases r with
      | nil => simp only [lin]; exact val_cons_skip hτ
      | cons q r => obtain ⟨t2, v2⟩ := q; simp only [lin]; exact val_cons_skip hτ
    rcases lt_trichotomy t t1 with h1 | h1 | h1
    · have hn : ∀ q ∈ lin .LINEAR ((t1, v1) :: r), pl t < pl q.time := fun q hq => by
        simpa using lt_of_lt_of_le h1 (hfrom q hq)
      simp only [lin]
      rw [val_cons_of_lt (fun q hq => lt_of_le_of_lt (by simp) (hn q hq)) (by simpa using h0),
        val_cons_of_lt hn (by simpa using h0.le)]
      rfl
    · subst h1
      rw [hcons _ le_rfl, val_lin_pl _ _ _ h'.2]
      have e1 : Spec.interp .LINEAR ((t, v1) :: r) t = some v1 := by
        cases r with
        | nil => simp [Spec.interp]
        | cons q r =>
          obtain ⟨t2, v2⟩ := q
          have : t < t2 := (List.pairwise_cons.1 h'.2).1 (t2, v2) (by simp)
          simp [Spec.interp, this]
      rw [e1]
      simp only [lin]
      rw [val_cons_of_lt (fun q hq => by simpa using hfrom q hq) (by simpa using h0)]
      have : t - t0 ≠ 0 := (sub_pos.2 h0).ne'
      simp only [Sample.valueAt, mi_time]
      field_simp
      ring_nf
    · rw [hcons _ (by simpa using h1), hcons _ (by simpa using h1.le)]
      exact val_lin_mi ((t1, v1) :: r) t h'.2 (by simpa using h1)

/-- The interpolated signal is well formed. -/
theorem linSig_wf (ip : Interpol) {p : ℚ × ℚ} {l : List (ℚ × ℚ)} (h : Inc (p :: l)) :
    WF (linSig ip (p :: l)) := by
  have hs := linSig_samples ip (p :: l)
  have hd : ∃ s r, lin ip (p :: l) = s :: r ∧ s.time = p.1 ∧ s.value = p.2 := by
    obtain ⟨t, v⟩ := p
    cases l with
    | nil => exact ⟨_, _, rfl, rfl, rfl⟩
    | cons q l => obtain ⟨t', v'⟩ := q; exact ⟨_, _, rfl, rfl, rfl⟩
  obtain ⟨s, r, e1, e2, e3⟩ := hd
  have hlt := lin_sorted ip h
  obtain ⟨q, hq⟩ : ∃ q, (p :: l).getLast? = some q :=
    ⟨_, List.getLast?_eq_some_getLast (by simp)⟩
  refine ⟨⟨?_, ?_, ?_, ?_⟩, ?_⟩
  · rw [hs]; exact lin_ne_nil ip (by simp)
  · rw [hs, linSig_begin, e1]
    intro x hx
    simp at hx
    rw [← hx, e2]
  · rw [hs]
    exact hlt.imp fun h => h.le
  · rw [hs, linSig_end hq]
    intro x hx
    have hx' := lin_mem hx
    obtain ⟨l', hl'⟩ := getLast?_eq_some_append hq
    rw [hl'] at h hx'
    rcases List.mem_append.1 hx' with hx' | hx'
    · exact ((List.pairwise_append.1 h).2.2 _ hx' q (by simp)).le
    · simp only [List.mem_singleton] at hx'
      rw [← hx']
  · rw [hs, linSig_begin, e1, ← e2]
    rw [e1] at hlt
    exact (List.pairwise_cons.1 hlt).1

end STLRom
