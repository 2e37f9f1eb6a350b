import Verif.Spec.Signal
import Verif.Proofs.Append
import Mathlib.Tactic.NormNum

/-!
# Property C59: `append_sample(t, v, d)` and `append_signal`

The three-argument form takes a slope.  Between two accepted times the slope given for the
earlier one plays no part; the slope of the last one is kept (LINEAR) or dropped (PREVIOUS).
-/

namespace STLRom
open Signal

theorem getLast?_setBack (l : List Sample) (d : ℚ) :
    (setBackDerivative l d).getLast? = l.getLast?.map fun p => ⟨p.time, p.value, d⟩ := by
  unfold setBackDerivative
  cases h : l.getLast? with
  | none => simp [h]
  | some p => simp

theorem setBack_ne_nil {l : List Sample} (h : l ≠ []) (d : ℚ) : setBackDerivative l d ≠ [] := by
  intro h'
  have := getLast?_setBack l d
  rw [h', List.getLast?_eq_some_getLast h] at this
  simp at this

theorem setBack_setBack (l : List Sample) (d e : ℚ) :
    setBackDerivative (setBackDerivative l d) e = setBackDerivative l e := by
  conv_lhs => rw [setBackDerivative, getLast?_setBack]
  unfold setBackDerivative
  cases h : l.getLast? with
  | none => simp
  | some p => simp

theorem setBack_self {l : List Sample} {p : Sample} (h : l.getLast? = some p) :
    setBackDerivative l p.derivative = l := by
  obtain ⟨l', rfl⟩ := getLast?_eq_some_append h
  simp [setBackDerivative]

namespace Props
open Signal Spec

/-- The signal built by a sequence of `append_sample(t, v, d)` calls. -/
def built3 (ip : Interpol) (ps : List (ℚ × ℚ × ℚ)) : M Signal :=
  ps.foldlM (fun x p => appendSample ip x p.1 p.2.1 p.2.2) Signal.empty

/-- The calls that come later than all calls kept before them. -/
def kept (ps : List (ℚ × ℚ × ℚ)) : List (ℚ × ℚ × ℚ) :=
  ps.foldl (fun acc p => match acc.getLast? with
    | none => [p]
    | some q => if q.1 < p.1 then acc ++ [p] else acc) []

/-- The slope stored for the last accepted call. -/
def lastSlope (ip : Interpol) (l : List (ℚ × ℚ × ℚ)) : ℚ :=
  match ip, l.getLast? with
  | .LINEAR, some p => p.2.2
  | _, _ => 0

def pairs (l : List (ℚ × ℚ × ℚ)) : List (ℚ × ℚ) := l.map fun p => (p.1, p.2.1)

theorem pairs_getLast? (l : List (ℚ × ℚ × ℚ)) :
    (pairs l).getLast? = l.getLast?.map fun p => (p.1, p.2.1) := by
  simp [pairs]

/-- The signal reached after the calls `l` were accepted. -/
def sig3 (ip : Interpol) (l : List (ℚ × ℚ × ℚ)) : Signal :=
  ⟨setBackDerivative (lin ip (pairs l)) (lastSlope ip l), (linSig ip (pairs l)).beginTime,
    (linSig ip (pairs l)).endTime⟩

theorem appendSample_sig3 (ip : Interpol) (l : List (ℚ × ℚ × ℚ)) (t v d : ℚ) :
    appendSample ip (sig3 ip l) t v d = .ok (sig3 ip (match l.getLast? with
      | none => [(t, v, d)]
      | some q => if q.1 < t then l ++ [(t, v, d)] else l)) := by
  cases l with
  | nil =>
    cases ip <;>
      simp [appendSample, sig3, pairs, linSig, Signal.empty, lin, lastSlope, setBackDerivative]
  | cons p l =>
    obtain ⟨q, hq⟩ : ∃ q, (p :: l).getLast? = some q :=
      ⟨_, List.getLast?_eq_some_getLast (by simp)⟩
    have hq' : (pairs (p :: l)).getLast? = some (q.1, q.2.1) := by rw [pairs_getLast?, hq]; rfl
    have hpne : pairs (p :: l) ≠ [] := by simp [pairs]
    simp only [hq]
    have hne := setBack_ne_nil (lin_ne_nil ip hpne) (lastSlope ip (p :: l))
    have he : (sig3 ip (p :: l)).endTime = q.1 := linSig_end (ip := ip) hq'
    have hs : (sig3 ip (p :: l)).samples =
      setBackDerivative (lin ip (pairs (p :: l))) (lastSlope ip (p :: l)) := rfl
    have hb : (sig3 ip (p :: l)).beginTime = p.1 :=
      linSig_begin (ip := ip) (p := (p.1, p.2.1)) (l := pairs l)
    by_cases h : q.1 < t
    · rw [if_pos h]
      have hcond : ¬ (t ≤ (sig3 ip (p :: l)).endTime ∧ (sig3 ip (p :: l)).samples ≠ []) := by
        rw [he]; intro h'; exact absurd h (not_lt.2 h'.1)
      have hpp : pairs (p :: l ++ [(t, v, d)]) = pairs (p :: l) ++ [(t, v)] := by simp [pairs]
      have hlast : (pairs (p :: l ++ [(t, v, d)])).getLast? = some (t, v) := by
        rw [hpp]; simp
      have hsl : (p :: l ++ [(t, v, d)]).getLast? = some (t, v, d) := by
        rw [List.getLast?_append]; simp
      have hR : sig3 ip (p :: l ++ [(t, v, d)]) =
          ⟨setBackDerivative (lin ip (pairs (p :: l) ++ [(t, v)]))
            (lastSlope ip (p :: l ++ [(t, v, d)])), p.1, t⟩ := by
        rw [sig3, linSig_end (ip := ip) hlast, hpp]
        congr 1
      rw [hR, appendSample.eq_def, if_neg hcond]
      simp only [hs, hne, if_false, hb]
      cases ip with
      | PREVIOUS =>
        have h0 : lastSlope .PREVIOUS (p :: l) = 0 := rfl
        have h1 : lastSlope .PREVIOUS (p :: l ++ [(t, v, d)]) = 0 := rfl
        have hlg := lin_getLast? .PREVIOUS (pairs (p :: l))
        rw [hq', Option.map_some] at hlg
        rw [h0, h1, lin_snoc_previous]
        have := setBack_self hlg
        simp only at this
        rw [this]
        simp [setBackDerivative]
      | LINEAR =>
        have h1 : lastSlope .LINEAR (p :: l ++ [(t, v, d)]) = d := by
          simp only [lastSlope, hsl]
        rw [h1]
        simp only [getLast?_setBack, lin_getLast?, hq', Option.map_some, qdiv, sub_eq_zero,
          if_neg h.ne', bind, Except.bind]
        rw [lin_snoc_linear _ _ t v hq', setBack_setBack]
        conv_rhs => rw [setBackDerivative]
        simp
    · rw [if_neg h]
      have hcond : t ≤ (sig3 ip (p :: l)).endTime ∧ (sig3 ip (p :: l)).samples ≠ [] := by
        rw [he, hs]; exact ⟨not_lt.1 h, hne⟩
      rw [appendSample.eq_def, if_pos hcond]

theorem appends3_aux (ip : Interpol) (ps : List (ℚ × ℚ × ℚ)) : ∀ l : List (ℚ × ℚ × ℚ),
    ps.foldlM (fun x p => appendSample ip x p.1 p.2.1 p.2.2) (sig3 ip l) =
      .ok (sig3 ip (ps.foldl (fun acc p => match acc.getLast? with
        | none => [p]
        | some q => if q.1 < p.1 then acc ++ [p] else acc) l)) := by
  induction ps with
  | nil => intro l; rfl
  | cons p ps ih =>
    intro l
    simp only [List.foldlM_cons, List.foldl_cons, appendSample_sig3, bind, Except.bind]
    exact ih _

theorem built3_eq (ip : Interpol) (ps : List (ℚ × ℚ × ℚ)) :
    built3 ip ps = .ok (sig3 ip (kept ps)) := by
  have h0 : sig3 ip [] = Signal.empty := by cases ip <;> rfl
  rw [built3, ← h0]
  exact appends3_aux ip ps []

theorem pairs_kept_aux (ps : List (ℚ × ℚ × ℚ)) : ∀ l : List (ℚ × ℚ × ℚ),
    pairs (ps.foldl (fun acc p => match acc.getLast? with
        | none => [p]
        | some q => if q.1 < p.1 then acc ++ [p] else acc) l) =
    (pairs ps).foldl (fun acc p => match acc.getLast? with
        | none => [p]
        | some q => if q.1 < p.1 then acc ++ [p] else acc) (pairs l) := by
  induction ps with
  | nil => intro l; rfl
  | cons p ps ih =>
    intro l
    rw [show pairs (p :: ps) = (p.1, p.2.1) :: pairs ps from rfl, List.foldl_cons,
      List.foldl_cons, ih, pairs_getLast?]
    congr 1
    cases l.getLast? with
    | none => rfl
    | some q =>
      simp only [Option.map_some]
      split_ifs <;> simp [pairs]

theorem pairs_kept (ps : List (ℚ × ℚ × ℚ)) : pairs (kept ps) = accepted (pairs ps) :=
  pairs_kept_aux ps []

/-- C59.  The calls kept are those of `append_sample(t, v)` (C01), the last stored slope is the
one given with LINEAR and 0 with PREVIOUS, and every other stored slope is the one
interpolation needs: the slopes given for all calls but the last kept one are ignored. -/
theorem C59_append (ip : Interpol) (ps : List (ℚ × ℚ × ℚ)) :
    ∃ z, built3 ip ps = .ok z ∧
      (∀ t, t ≤ z.endTime → value z t = interp ip (accepted (ps.map fun p => (p.1, p.2.1))) t) ∧
      (∀ p, (kept ps).getLast? = some p →
        z.endTime = p.1 ∧
        z.samples.getLast? = some ⟨p.1, p.2.1, match ip with
          | .LINEAR => p.2.2
          | .PREVIOUS => 0⟩) ∧
      (∀ p, (kept ps).head? = some p → z.beginTime = p.1) ∧
      z.samples.map (fun s => (s.time, s.value)) = accepted (ps.map fun p => (p.1, p.2.1)) := by
  refine ⟨_, built3_eq ip ps, ?_, ?_, ?_, ?_⟩
  · intro t ht
    change _ = interp ip (accepted (pairs ps)) t
    have hinc := accepted_inc (pairs ps)
    rw [← pairs_kept] at hinc ⊢
    rw [← val_lin_pl ip _ t hinc, value_eq]
    generalize kept ps = l at *
    rcases List.eq_nil_or_concat l with h | ⟨l', p, h⟩
    · subst h; cases ip <;> rfl
    · rw [List.concat_eq_append] at h
      subst h
      have hlg : (pairs (l' ++ [p])).getLast? = some (p.1, p.2.1) := by rw [pairs_getLast?]; simp
      have hend : (sig3 ip (l' ++ [p])).endTime = p.1 := linSig_end (ip := ip) hlg
      rw [hend] at ht
      have hl := lin_getLast? ip (pairs (l' ++ [p]))
      rw [hlg, Option.map_some] at hl
      obtain ⟨r, hr⟩ := getLast?_eq_some_append hl
      simp only [sig3]
      rw [hr]
      simp only [setBackDerivative, List.getLast?_append, List.getLast?_singleton,
        Option.some_or, List.dropLast_concat]
      by_cases h : t < p.1
      · have hn : ∀ d, cur [(⟨p.1, p.2.1, d⟩ : Sample)] (pl t) = none := by
          intro d
          rw [cur_eq_none]
          intro q hq
          simp only [List.mem_singleton] at hq
          subst hq
          simpa using h
        simp only [val, cur_append, hn]
      · have hte : t = p.1 := le_antisymm ht (not_lt.1 h)
        subst hte
        have hn : ∀ d, cur [(⟨p.1, p.2.1, d⟩ : Sample)] (pl p.1) = some ⟨p.1, p.2.1, d⟩ := by
          intro d; simp [cur]
        simp only [val, cur_append, hn]
        simp [Sample.valueAt]
  · intro p hp
    have hlg : (pairs (kept ps)).getLast? = some (p.1, p.2.1) := by rw [pairs_getLast?, hp]; rfl
    refine ⟨linSig_end (ip := ip) hlg, ?_⟩
    simp only [sig3]
    rw [getLast?_setBack, lin_getLast?, hlg]
    cases ip <;> simp [lastSlope, hp]
  · intro p hp
    cases hk : kept ps with
    | nil => simp [hk] at hp
    | cons q l =>
      rw [hk] at hp
      simp only [List.head?_cons, Option.some.injEq] at hp
      subst hp
      exact linSig_begin (ip := ip) (p := (q.1, q.2.1)) (l := pairs l)
  · change _ = accepted (pairs ps)
    rw [← pairs_kept, ← lin_times ip (pairs (kept ps))]
    simp only [sig3]
    rcases hl : (lin ip (pairs (kept ps))).getLast? with _ | p
    · rw [List.getLast?_eq_none_iff] at hl
      rw [hl]; rfl
    · obtain ⟨r, hr⟩ := getLast?_eq_some_append hl
      rw [hr]; simp [setBackDerivative]

example : ∃ z, built3 .LINEAR [(0, 1, 9), (2, 5, 7), (1, 7, 0), (4, 3, -2)] = .ok z ∧
    value z 3 = some 4 ∧ z.samples.getLast? = some ⟨4, 3, -2⟩ :=
  ⟨⟨[⟨0, 1, 2⟩, ⟨2, 5, -1⟩, ⟨4, 3, -2⟩], 0, 4⟩, by decide +kernel, by decide +kernel,
    by decide +kernel⟩
example : ∃ z, built3 .PREVIOUS [(0, 1, 9), (2, 5, 7)] = .ok z ∧ value z 1 = some 1 ∧
    z.samples.getLast? = some ⟨2, 5, 0⟩ :=
  ⟨⟨[⟨0, 1, 0⟩, ⟨2, 5, 0⟩], 0, 2⟩, by decide +kernel, by decide +kernel, by decide +kernel⟩

/-- `append_signal` is a sequence of three-argument `append_sample` calls. -/
theorem C59_append_signal (ip : Interpol) (x y : Signal) :
    appendSignal ip x y =
      (y.samples.map fun p => (p.time, p.value, p.derivative)).foldlM
        (fun x p => appendSample ip x p.1 p.2.1 p.2.2) x := by
  have : ∀ (l : List Sample) (x : Signal), appendSamples ip x l =
      (l.map fun p => (p.time, p.value, p.derivative)).foldlM
        (fun x p => appendSample ip x p.1 p.2.1 p.2.2) x := by
    intro l
    induction l with
    | nil => intro x; rfl
    | cons p l ih =>
      intro x
      simp only [appendSamples, List.map_cons, List.foldlM_cons, bind, Except.bind]
      cases appendSample ip x p.time p.value p.derivative with
      | error e => rfl
      | ok z => exact ih z
  exact this _ _

/-- Hence appending a signal to an empty one does not copy it: jumps are lost with LINEAR and
slopes with PREVIOUS. -/
theorem C59_copy_false :
    ¬ ∀ (ip : Interpol) (y : Signal), Proper y →
      ∃ z, appendSignal ip Signal.empty y = .ok z ∧
        ∀ t, y.beginTime ≤ t → t ≤ y.endTime → value z t = value y t := by
  intro h
  obtain ⟨z, hz, hv⟩ := h .LINEAR ⟨[⟨0, 0, 0⟩, ⟨2, 5, 0⟩], 0, 2⟩
    { ne := by simp
      head := by simp
      sorted := by simp
      le_end := by simp
      strict := by simp }
  have hz' : appendSignal .LINEAR Signal.empty ⟨[⟨0, 0, 0⟩, ⟨2, 5, 0⟩], 0, 2⟩ =
    .ok ⟨[⟨0, 0, 5 / 2⟩, ⟨2, 5, 0⟩], 0, 2⟩ := by decide +kernel
  rw [hz'] at hz
  injection hz with hz
  subst hz
  have := hv 1 (by norm_num) (by norm_num)
  revert this
  decide +kernel

end Props
end STLRom
