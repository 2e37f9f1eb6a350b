import Verif.Proofs.Lex
import Verif.Model.Robust

/-!
# The conjunction routine computes the pointwise minimum
-/

namespace STLRom

/-- `l` denotes `f` on the points after `u` up to `E`. -/
def Den (l : List Sample) (u E : Pt) (f : Pt → ℚ) : Prop :=
  ∀ τ, u < τ → τ ≤ E → val l τ = some (f τ)

/-- Value read through a reverse iterator range. -/
def valR (l : List Sample) (τ : Pt) : Option ℚ :=
  (l.find? fun p => decide (pl p.time ≤ τ)).map fun p => p.valueAt τ.time

theorem val_eq_valR (l : List Sample) (τ : Pt) : val l τ = valR l.reverse τ := by
  simp [val, valR, cur_eq_find]

theorem valR_cons_of_le {p : Sample} {l : List Sample} {τ : Pt} (h : pl p.time ≤ τ) :
    valR (p :: l) τ = some (p.valueAt τ.time) := by
  simp [valR, h]

theorem valR_cons_of_lt {p : Sample} {l : List Sample} {τ : Pt} (h : τ < pl p.time) :
    valR (p :: l) τ = valR l τ := by
  simp [valR, not_le.2 h]

/-- Times never increase along a reverse range. -/
def RSorted (l : List Sample) : Prop := l.Pairwise fun p q => q.time ≤ p.time

theorem rsorted_reverse {l : List Sample} : RSorted l.reverse ↔ Sorted l := by
  simp [RSorted, Sorted, List.pairwise_reverse]

theorem den_cons {l : List Sample} {t : ℚ} {E : Pt} {f : Pt → ℚ} {p : Sample}
    (h : Den l (mi t) E f) (hl : From t l)
    (hf : ∀ τ, pl p.time ≤ τ → τ ≤ mi t → p.valueAt τ.time = f τ) :
    Den (p :: l) (mi p.time) E f := by
  intro τ h1 h2
  rw [mi_lt_iff] at h1
  by_cases h3 : τ ≤ mi t
  · rw [val_cons_of_lt _ h1, hf τ h1 h3]
    intro q' hq'
    refine lt_of_le_of_lt h3 ?_
    rw [mi_lt_pl]
    exact hl q' hq'
  · exact val_cons_of_some (h τ (not_le.1 h3) h2)

theorem den_merge {l : List Sample} {t : ℚ} {E : Pt} {f : Pt → ℚ} {p q : Sample}
    (h : Den (p :: l) (mi t) E f) (hl : From t l) (hp : p.time = t)
    (hv : ∀ r, q.valueAt r = p.valueAt r)
    (hf : ∀ τ, pl q.time ≤ τ → τ ≤ mi t → q.valueAt τ.time = f τ) :
    Den (q :: l) (mi q.time) E f := by
  intro τ h1 h2
  rw [mi_lt_iff] at h1
  by_cases h3 : τ ≤ mi t
  · rw [val_cons_of_lt _ h1, hf τ h1 h3]
    intro q' hq'
    refine lt_of_le_of_lt h3 ?_
    rw [mi_lt_pl]
    exact hl q' hq'
  · have h4 := h τ (not_le.1 h3) h2
    have h5 : pl p.time ≤ τ := by rw [hp, ← mi_lt_iff]; exact not_le.1 h3
    simp only [val, cur, h1, h5, if_true] at h4 ⊢
    cases hc : cur l τ with
    | none => rw [hc] at h4; simpa [hv] using h4
    | some r => rw [hc] at h4; simpa using h4

/-- The output list with the pending piece of `i` made explicit. -/
def lst (i : Sample) (t : ℚ) (c : Bool) (z : List Sample) : List Sample :=
  if c then ⟨t, i.valueAt t, i.derivative⟩ :: z else z

theorem push_i {i : Sample} {t s : ℚ} {c : Bool} {z : List Sample} {E : Pt} {f : Pt → ℚ}
    (h : Den (lst i t c z) (mi t) E f) (hl : From t z)
    (hf : ∀ τ, pl s ≤ τ → τ ≤ mi t → i.valueAt τ.time = f τ) :
    Den (⟨s, i.valueAt s, i.derivative⟩ :: z) (mi s) E f := by
  cases c with
  | false =>
    exact den_cons (p := ⟨s, i.valueAt s, i.derivative⟩) (by simpa [lst] using h) hl
      (fun τ h1 h2 => by rw [valueAt_move]; exact hf τ h1 h2)
  | true =>
    exact den_merge (q := ⟨s, i.valueAt s, i.derivative⟩) (by simpa [lst] using h) hl rfl
      (fun r => by rw [valueAt_move, valueAt_move])
      (fun τ h1 h2 => by rw [valueAt_move]; exact hf τ h1 h2)

theorem from_cons {t : ℚ} {p : Sample} {l : List Sample} (hp : t ≤ p.time) (h : From t l) :
    From t (p :: l) := by
  intro q hq
  rcases List.mem_cons.1 hq with rfl | hq
  · exact hp
  · exact h q hq

theorem sorted_cons {p : Sample} {l : List Sample} (h : Sorted l) (hp : From p.time l) :
    Sorted (p :: l) := List.pairwise_cons.2 ⟨hp, h⟩

/-- Every sample lies strictly between `s` and `e` and has an admissible value. -/
def Btw (P : ℚ → ℚ → Prop) (s e : ℚ) (l : List Sample) : Prop :=
  ∀ p ∈ l, s < p.time ∧ p.time < e ∧ P p.time p.value

theorem btw_cons {P : ℚ → ℚ → Prop} {s e : ℚ} {p : Sample} {l : List Sample} (h1 : s < p.time)
    (h2 : p.time < e) (h3 : P p.time p.value) (h : Btw P s e l) : Btw P s e (p :: l) := by
  intro q hq
  rcases List.mem_cons.1 hq with rfl | hq
  · exact ⟨h1, h2, h3⟩
  · exact h q hq

/-- What a routine has established once everything after `t` is written. -/
structure Done (z : List Sample) (t e : ℚ) (f : Pt → ℚ) : Prop where
  sorted : Sorted z
  from' : From t z
  den : Den z (mi t) (mi e) f

theorem Done.nil (e : ℚ) (f : Pt → ℚ) : Done [] e e f :=
  ⟨List.Pairwise.nil, fun _ h => by simp at h,
    fun τ h1 h2 => absurd h2 (not_le.2 h1)⟩

theorem Done.cons {z : List Sample} {t e : ℚ} {f : Pt → ℚ} (h : Done z t e f) {p : Sample}
    (hp : p.time ≤ t) (hf : ∀ τ, pl p.time ≤ τ → τ ≤ mi t → p.valueAt τ.time = f τ) :
    Done (p :: z) p.time e f :=
  ⟨sorted_cons h.sorted (h.from'.mono hp), from_cons le_rfl (h.from'.mono hp),
    den_cons h.den h.from' hf⟩

theorem lst_from {i : Sample} {t : ℚ} {c : Bool} {z : List Sample}
    (h : From t (lst i t c z)) : From t z := by
  cases c with
  | false => simpa [lst] using h
  | true => exact fun p hp => h p (by simp [lst, hp])

theorem lst_sorted {i : Sample} {t : ℚ} {c : Bool} {z : List Sample}
    (h : Sorted (lst i t c z)) : Sorted z := by
  cases c with
  | false => simpa [lst] using h
  | true => exact (List.pairwise_cons.1 h).2

theorem Done.push_i {i : Sample} {t s e : ℚ} {c : Bool} {z : List Sample} {f : Pt → ℚ}
    (h : Done (lst i t c z) t e f) (hs : s ≤ t)
    (hf : ∀ τ, pl s ≤ τ → τ ≤ mi t → i.valueAt τ.time = f τ) :
    Done (⟨s, i.valueAt s, i.derivative⟩ :: z) s e f :=
  ⟨sorted_cons (lst_sorted h.sorted) ((lst_from h.from').mono hs),
    from_cons le_rfl ((lst_from h.from').mono hs),
    STLRom.push_i h.den (lst_from h.from') hf⟩

theorem btw_lst {P : ℚ → ℚ → Prop} {i : Sample} {t s e : ℚ} {c : Bool} {z : List Sample}
    (h : Btw P s e z) (hc : c = true → s < t ∧ t < e ∧ P t (i.valueAt t)) :
    Btw P s e (lst i t c z) := by
  cases c with
  | false => simpa [lst] using h
  | true =>
    simpa [lst] using btw_cons (p := ⟨t, i.valueAt t, i.derivative⟩) (hc rfl).1 (hc rfl).2.1
      (hc rfl).2.2 h

open Signal

theorem sample_eta (p : Sample) : (⟨p.time, p.value, p.derivative⟩ : Sample) = p := rfl

/-- The list with the pending piece, as the code writes it. -/
theorem lst_def (i : Sample) (t : ℚ) (c : Bool) (z : List Sample) :
    (if c = true then (⟨t, i.valueAt t, i.derivative⟩ : Sample) :: z else z) = lst i t c z := rfl

theorem segmentAndLoop_spec {P : ℚ → ℚ → Prop} {X Y : Pt → ℚ} {e : ℚ} {i : Sample} :
    ∀ (js z : List Sample) (t : ℚ) (c : Bool),
      i.time ≤ t →
      (∀ τ, pl i.time ≤ τ → τ ≤ mi t → i.valueAt τ.time = X τ) →
      (∀ τ, pl i.time ≤ τ → τ ≤ mi t → valR js τ = some (Y τ)) →
      RSorted js → (∀ j ∈ js, j.time ≤ t ∧ j.time < e) → (∃ j ∈ js, j.time ≤ i.time) → t ≤ e →
      Done (lst i t c z) t e (fun τ => min (X τ) (Y τ)) →
      Btw P i.time e z → (c = true → i.time < t ∧ t < e ∧ P t (i.valueAt t)) →
      (∀ T, i.time < T → T < t → P T (min (X (pl T)) (Y (pl T)))) →
      (∀ j ∈ js, i.time < j.time → P j.time (min (i.valueAt j.time) j.value)) →
      ∃ z' t' c' j js', segmentAndLoop i z t c js = .ok (z', t', c', j :: js') ∧
        (∃ pre, js = pre ++ j :: js' ∧ ∀ p ∈ pre, i.time < p.time) ∧
        j.time ≤ i.time ∧ i.time ≤ t' ∧ t' ≤ t ∧
        Done (lst i t' c' z') t' e (fun τ => min (X τ) (Y τ)) ∧
        Btw P i.time e z' ∧ (c' = true → i.time < t' ∧ t' < e ∧ P t' (i.valueAt t')) ∧
        (∀ τ, pl i.time ≤ τ → τ ≤ mi t' → j.valueAt τ.time = Y τ) := by
  intro js
  induction js with
  | nil => intro z t c _ _ _ _ _ h; obtain ⟨j, hj, _⟩ := h; simp at hj
  | cons j js ih =>
    intro z t c hit hX hY hsrt hjt hex hte hD hB hc hP1 hP2
    obtain ⟨hjt1, hje⟩ := hjt j (by simp)
    by_cases hlt : i.time < j.time
    · -- one turn of the loop
      have hYj : ∀ τ, pl j.time ≤ τ → τ ≤ mi t → j.valueAt τ.time = Y τ := by
        intro τ h1 h2
        have := hY τ (le_trans (by simpa using hlt.le) h1) h2
        rw [valR_cons_of_le h1] at this
        exact Option.some.inj this
      have hXi : ∀ τ, pl j.time ≤ τ → τ ≤ mi t → i.valueAt τ.time = X τ := fun τ h1 h2 =>
        hX τ (le_trans (by simpa using hlt.le) h1) h2
      have hPi : i.valueAt j.time ≤ j.value → P j.time (i.valueAt j.time) := fun h => by
        have := hP2 j (by simp) hlt
        rwa [min_eq_left h] at this
      have hPj : j.value ≤ i.valueAt j.time → P j.time j.value := fun h => by
        have := hP2 j (by simp) hlt
        rwa [min_eq_right h] at this
      have hPr : ∀ r, j.time < r → r < t → i.valueAt r = j.valueAt r → P r (i.valueAt r) := by
        intro r h1 h2 h3
        have := hP1 r (hlt.trans h1) h2
        rw [← hXi (pl r) (by simpa using h1.le) (by simpa using h2),
          ← hYj (pl r) (by simpa using h1.le) (by simpa using h2), pl_time, ← h3, min_self] at this
        exact this
      have step : ∀ z' c', Done (lst i j.time c' z') j.time e (fun τ => min (X τ) (Y τ)) →
          Btw P i.time e z' → (c' = true → i.valueAt j.time ≤ j.value) →
          ∃ z'' t' c'' j' js', segmentAndLoop i z' j.time c' js = .ok (z'', t', c'', j' :: js') ∧
            (∃ pre, j :: js = pre ++ j' :: js' ∧ ∀ p ∈ pre, i.time < p.time) ∧
            j'.time ≤ i.time ∧ i.time ≤ t' ∧ t' ≤ t ∧
            Done (lst i t' c'' z'') t' e (fun τ => min (X τ) (Y τ)) ∧
            Btw P i.time e z'' ∧ (c'' = true → i.time < t' ∧ t' < e ∧ P t' (i.valueAt t')) ∧
            (∀ τ, pl i.time ≤ τ → τ ≤ mi t' → j'.valueAt τ.time = Y τ) := by
        intro z' c' hD' hB' hc'
        have hs := List.pairwise_cons.1 hsrt
        obtain ⟨z'', t', c'', j', js', h1, ⟨pre, h2, h2'⟩, h3, h4, h5, h6, h7, h8, h9⟩ :=
          ih z' j.time c' hlt.le
          (fun τ h1 h2 => hX τ h1 (h2.trans (by simpa using hjt1)))
          (fun τ h1 h2 => by
            have := hY τ h1 (h2.trans (by simpa using hjt1))
            rwa [valR_cons_of_lt (lt_of_le_of_lt h2 (by simp))] at this)
          hs.2 (fun q hq => ⟨hs.1 q hq, (hjt q (by simp [hq])).2⟩)
          (by
            obtain ⟨q, hq, hq'⟩ := hex
            rcases List.mem_cons.1 hq with rfl | hq
            · exact absurd hq' (not_le.2 hlt)
            · exact ⟨q, hq, hq'⟩)
          hje.le hD' hB' (fun h => ⟨hlt, hje, hPi (hc' h)⟩)
          (fun T h1 h2 => hP1 T h1 (h2.trans_le hjt1))
          (fun q hq => hP2 q (List.mem_cons_of_mem _ hq))
        refine ⟨z'', t', c'', j', js', h1, ⟨j :: pre, by rw [h2]; rfl, ?_⟩, h3, h4, h5.trans hjt1,
          h6, h7, h8, h9⟩
        intro p hp
        rcases List.mem_cons.1 hp with rfl | hp
        · exact hlt
        · exact h2' p hp
      have hjv : j.valueAt j.time = j.value := valueAt_self j
      -- the new front when `i` stays below on [j.time, t]
      have keep_i : i.valueAt t ≤ j.valueAt t → i.valueAt j.time ≤ j.value →
          Done (lst i j.time true z) j.time e (fun τ => min (X τ) (Y τ)) := by
        intro h1 h2
        refine hD.push_i hjt1 ?_
        intro τ h3 h4
        rw [← hXi τ h3 h4, ← hYj τ h3 h4, min_eq_left]
        exact valueAt_le_between (pl_le_iff h3) (le_mi_iff h4) (by rw [hjv]; exact h2) h1
      -- the new front when `j` stays below on [j.time, t]
      have keep_j : j.valueAt t ≤ i.valueAt t → j.value ≤ i.valueAt j.time →
          Done (lst i j.time false (j :: lst i t c z)) j.time e
            (fun τ => min (X τ) (Y τ)) := by
        intro h1 h2
        refine hD.cons (p := j) hjt1 ?_
        intro τ h3 h4
        rw [← hXi τ h3 h4, ← hYj τ h3 h4, min_eq_right]
        exact valueAt_le_between (pl_le_iff h3) (le_mi_iff h4) (by rw [hjv]; exact h2) h1
      have hBl : Btw P i.time e (lst i t c z) := btw_lst hB hc
      rw [segmentAndLoop, if_pos hlt]
      simp only [lst_def, sample_eta]
      split_ifs with hA hA1 hA2 hB1 hC1
      · -- i below at t, above at j.time
        obtain ⟨r, hr, hr1, hr2, hr3⟩ := timeIntersect_spec hjt1 hA (by rw [hjv]; exact hA1)
        simp only [hr]
        refine step _ false ?_ (btw_cons hlt hje (hPj hA1.le)
          (btw_cons (hlt.trans hr1) (hr2.trans_le hte) (hPr r hr1 hr2 hr3) hB)) (by simp)
        have hD1 := hD.push_i (s := r) hr2.le (fun τ h3 h4 => by
          rw [← hXi τ (le_trans (by simpa using hr1.le) h3) h4,
            ← hYj τ (le_trans (by simpa using hr1.le) h3) h4, min_eq_left]
          exact valueAt_le_between (pl_le_iff h3) (le_mi_iff h4) hr3.le hA.le)
        refine hD1.cons (p := j) hr1.le ?_
        intro τ h3 h4
        have h5 : τ ≤ mi t := h4.trans (by simpa using hr2.le)
        rw [← hXi τ h3 h5, ← hYj τ h3 h5, min_eq_right]
        exact valueAt_le_between (pl_le_iff h3) (le_mi_iff h4) (by rw [hjv]; exact hA1.le) hr3.ge
      · exact step z true (keep_i hA.le (not_lt.1 hA1)) hB (fun _ => not_lt.1 hA1)
      · exact step _ false (keep_j hA2.ge hB1.le) (btw_cons hlt hje (hPj hB1.le) hBl) (by simp)
      · exact step z true (keep_i hA2.le (not_lt.1 hB1)) hB (fun _ => not_lt.1 hB1)
      · -- i above at t, below at j.time
        have hA' : j.valueAt t < i.valueAt t := lt_of_le_of_ne (not_lt.1 hA) (Ne.symm hA2)
        obtain ⟨r, hr, hr1, hr2, hr3⟩ := timeIntersect_spec' hjt1 hA' (by rw [hjv]; exact hC1)
        simp only [hr]
        refine step _ true ?_ (btw_cons (hlt.trans hr1) (hr2.trans_le hte)
          (by have := hPr r hr1 hr2 hr3; rwa [hr3] at this) hBl) (fun _ => hC1.le)
        have hD1 := hD.cons (p := ⟨r, j.valueAt r, j.derivative⟩) hr2.le (fun τ h3 h4 => by
          rw [valueAt_move, ← hXi τ (le_trans (by simpa using hr1.le) h3) h4,
            ← hYj τ (le_trans (by simpa using hr1.le) h3) h4, min_eq_right]
          exact valueAt_le_between (pl_le_iff h3) (le_mi_iff h4) hr3.ge hA'.le)
        refine Done.push_i (c := false) (i := i) (by simpa [lst] using hD1) hr1.le ?_
        intro τ h3 h4
        have h5 : τ ≤ mi t := h4.trans (by simpa using hr2.le)
        rw [← hXi τ h3 h5, ← hYj τ h3 h5, min_eq_left]
        exact valueAt_le_between (pl_le_iff h3) (le_mi_iff h4) (by rw [hjv]; exact hC1.le) hr3.le
      · have hA' : j.valueAt t ≤ i.valueAt t := not_lt.1 hA
        exact step _ false (keep_j hA' (not_lt.1 hC1)) (btw_cons hlt hje (hPj (not_lt.1 hC1)) hBl)
          (by simp)
    · -- loop exit
      refine ⟨z, t, c, j, js, by rw [segmentAndLoop, if_neg hlt], ⟨[], rfl, by simp⟩,
        not_lt.1 hlt, hit, le_rfl, hD, hB, hc, ?_⟩
      intro τ h1 h2
      have := hY τ h1 h2
      rw [valR_cons_of_le (le_trans (by simpa using not_lt.1 hlt) h1)] at this
      exact Option.some.inj this

theorem segmentAndLast_spec {P : ℚ → ℚ → Prop} {X Y : Pt → ℚ} {e : ℚ} {i j : Sample} {z : List Sample} {t : ℚ}
    {c : Bool} (hit : i.time ≤ t) (hte : t ≤ e)
    (hX : ∀ τ, pl i.time ≤ τ → τ ≤ mi t → i.valueAt τ.time = X τ)
    (hY : ∀ τ, pl i.time ≤ τ → τ ≤ mi t → j.valueAt τ.time = Y τ)
    (hD : Done (lst i t c z) t e (fun τ => min (X τ) (Y τ)))
    (hB : Btw P i.time e z) (hc : c = true → i.time < t ∧ t < e ∧ P t (i.valueAt t))
    (hP1 : ∀ T, i.time < T → T < t → P T (min (X (pl T)) (Y (pl T)))) :
    ∃ p z', segmentAndLast i z t c j = .ok (p :: z') ∧ p.time = i.time ∧
      p.value = min i.value (j.valueAt i.time) ∧
      Done (p :: z') i.time e (fun τ => min (X τ) (Y τ)) ∧ Btw P i.time e z' := by
  have hiv : i.valueAt i.time = i.value := valueAt_self i
  have hBl : Btw P i.time e (lst i t c z) := btw_lst hB hc
  have keep_i : i.valueAt t ≤ j.valueAt t → i.value ≤ j.valueAt i.time →
      Done (i :: z) i.time e (fun τ => min (X τ) (Y τ)) := by
    intro h1 h2
    have := hD.push_i (s := i.time) hit (fun τ h3 h4 => by
      rw [← hX τ h3 h4, ← hY τ h3 h4, min_eq_left]
      exact valueAt_le_between (pl_le_iff h3) (le_mi_iff h4) (by rw [hiv]; exact h2) h1)
    rwa [hiv] at this
  have keep_j : j.valueAt t ≤ i.valueAt t → j.valueAt i.time ≤ i.value →
      Done (⟨i.time, j.valueAt i.time, j.derivative⟩ :: lst i t c z) i.time e
        (fun τ => min (X τ) (Y τ)) := by
    intro h1 h2
    refine hD.cons (p := ⟨i.time, j.valueAt i.time, j.derivative⟩) hit ?_
    intro τ h3 h4
    rw [valueAt_move, ← hX τ h3 h4, ← hY τ h3 h4, min_eq_right]
    exact valueAt_le_between (pl_le_iff h3) (le_mi_iff h4) (by rw [hiv]; exact h2) h1
  have hPr : ∀ r, i.time < r → r < t → i.valueAt r = j.valueAt r → P r (i.valueAt r) := by
    intro r h1 h2 h3
    have := hP1 r h1 h2
    rw [← hX (pl r) (by simpa using h1.le) (by simpa using h2),
      ← hY (pl r) (by simpa using h1.le) (by simpa using h2), pl_time, ← h3, min_self] at this
    exact this
  simp only [segmentAndLast, lst_def]
  split_ifs with hA hA1 hA2 hB1 hC1
  · obtain ⟨r, hr, hr1, hr2, hr3⟩ := timeIntersect_spec hit hA (by rw [hiv]; exact hA1)
    simp only [hr]
    refine ⟨_, _, rfl, rfl, (min_eq_right hA1.le).symm, ?_,
      btw_cons hr1 (hr2.trans_le hte) (hPr r hr1 hr2 hr3) hB⟩
    have hD1 := hD.push_i (s := r) hr2.le (fun τ h3 h4 => by
      rw [← hX τ (le_trans (by simpa using hr1.le) h3) h4,
        ← hY τ (le_trans (by simpa using hr1.le) h3) h4, min_eq_left]
      exact valueAt_le_between (pl_le_iff h3) (le_mi_iff h4) hr3.le hA.le)
    refine hD1.cons (p := ⟨i.time, j.valueAt i.time, j.derivative⟩) hr1.le ?_
    intro τ h3 h4
    have h5 : τ ≤ mi t := h4.trans (by simpa using hr2.le)
    rw [valueAt_move, ← hX τ h3 h5, ← hY τ h3 h5, min_eq_right]
    exact valueAt_le_between (pl_le_iff h3) (le_mi_iff h4) (by rw [hiv]; exact hA1.le) hr3.ge
  · exact ⟨_, _, rfl, rfl, (min_eq_left (not_lt.1 hA1)).symm, keep_i hA.le (not_lt.1 hA1), hB⟩
  · exact ⟨_, _, rfl, rfl, (min_eq_right hB1.le).symm, keep_j hA2.ge hB1.le, hBl⟩
  · exact ⟨_, _, rfl, rfl, (min_eq_left (not_lt.1 hB1)).symm, keep_i hA2.le (not_lt.1 hB1), hB⟩
  · have hA' : j.valueAt t < i.valueAt t := lt_of_le_of_ne (not_lt.1 hA) (Ne.symm hA2)
    obtain ⟨r, hr, hr1, hr2, hr3⟩ := timeIntersect_spec' hit hA' (by rw [hiv]; exact hC1)
    simp only [hr]
    refine ⟨_, _, rfl, rfl, (min_eq_left hC1.le).symm, ?_, btw_cons hr1 (hr2.trans_le hte)
      (by have := hPr r hr1 hr2 hr3; rwa [hr3] at this) hBl⟩
    have hD1 := hD.cons (p := ⟨r, j.valueAt r, j.derivative⟩) hr2.le (fun τ h3 h4 => by
      rw [valueAt_move, ← hX τ (le_trans (by simpa using hr1.le) h3) h4,
        ← hY τ (le_trans (by simpa using hr1.le) h3) h4, min_eq_right]
      exact valueAt_le_between (pl_le_iff h3) (le_mi_iff h4) hr3.ge hA'.le)
    have := Done.push_i (c := false) (i := i) (by simpa [lst] using hD1) hr1.le (fun τ h3 h4 => by
      have h5 : τ ≤ mi t := h4.trans (by simpa using hr2.le)
      rw [← hX τ h3 h5, ← hY τ h3 h5, min_eq_left]
      exact valueAt_le_between (pl_le_iff h3) (le_mi_iff h4) (by rw [hiv]; exact hC1.le) hr3.le)
    rwa [hiv] at this
  · exact ⟨_, _, rfl, rfl, (min_eq_right (not_lt.1 hC1)).symm, keep_j (not_lt.1 hA) (not_lt.1 hC1),
      hBl⟩

theorem segmentAnd_spec {P : ℚ → ℚ → Prop} {X Y : Pt → ℚ} {e : ℚ} {i : Sample} {js z : List Sample} {t : ℚ}
    (hit : i.time ≤ t) (hte : t ≤ e)
    (hX : ∀ τ, pl i.time ≤ τ → τ ≤ mi t → i.valueAt τ.time = X τ)
    (hY : ∀ τ, pl i.time ≤ τ → τ ≤ mi t → valR js τ = some (Y τ))
    (hsrt : RSorted js) (hjt : ∀ j ∈ js, j.time ≤ t ∧ j.time < e)
    (hex : ∃ j ∈ js, j.time ≤ i.time)
    (hD : Done z t e (fun τ => min (X τ) (Y τ))) (hB : Btw P i.time e z)
    (hP1 : ∀ T, i.time < T → T < t → P T (min (X (pl T)) (Y (pl T))))
    (hP2 : ∀ j ∈ js, i.time < j.time → P j.time (min (i.valueAt j.time) j.value)) :
    ∃ p z' j js', segmentAnd z i t js = .ok (p :: z', j :: js') ∧ p.time = i.time ∧
      p.value = min i.value (j.valueAt i.time) ∧ j.time ≤ i.time ∧ (∃ pre, js = pre ++ j :: js' ∧ ∀ p ∈ pre, i.time < p.time) ∧
      Done (p :: z') i.time e (fun τ => min (X τ) (Y τ)) ∧ Btw P i.time e z' := by
  obtain ⟨z', t', c', j, js', h1, h2, h3, h4, h5, h6, h7, h8, h9⟩ :=
    segmentAndLoop_spec js z t false hit hX hY hsrt hjt hex hte (by simpa [lst] using hD) hB
      (by simp) hP1 hP2
  obtain ⟨p, z'', h10, h11, h11', h12, h13⟩ := segmentAndLast_spec h4 (h5.trans hte)
    (fun τ a b => hX τ a (b.trans (by simpa using h5))) h9 h6 h7 h8
    (fun T a b => hP1 T a (b.trans_le h5))
  refine ⟨p, z'', j, js', ?_, h11, h11', h3, h2, h12, h13⟩
  simp only [segmentAnd, h1, bind, Except.bind, h10]

theorem valR_prefix {pre l : List Sample} {τ : Pt} (h : ∀ p ∈ pre, τ < pl p.time) :
    valR (pre ++ l) τ = valR l τ := by
  induction pre with
  | nil => rfl
  | cons p pre ih =>
    rw [List.cons_append, valR_cons_of_lt (h p (by simp)), ih (fun q hq => h q (by simp [hq]))]

/-- Admissibility of what zero-length pieces of the outer operand may write: such a piece (one
whose time is `t`, where the next piece starts) meets either an inner sample at the same time or
the inner operand's value just before. -/
def Gh (P : ℚ → ℚ → Prop) (Y : Pt → ℚ) (s : ℚ) (K : List Sample) : ℚ → List Sample → Prop
  | _, [] => True
  | t, i :: is =>
    (i.time = t → s < t → (∀ j ∈ K, j.time = t → P t (min i.value j.value)) ∧
      P t (min i.value (Y (mi t)))) ∧ Gh P Y s K i.time is

theorem partialAnd_spec {P : ℚ → ℚ → Prop} {X Y : Pt → ℚ} {e s : ℚ} {K : List Sample}
    (hP1 : ∀ T, s < T → T < e → P T (min (X (pl T)) (Y (pl T)))) :
    ∀ (is js z : List Sample) (t : ℚ), s < t → t ≤ e →
      (∀ τ, pl s ≤ τ → τ ≤ mi t → valR is τ = some (X τ)) →
      (∀ τ, pl s ≤ τ → τ ≤ mi t → valR js τ = some (Y τ)) →
      RSorted is → RSorted js →
      (∀ i ∈ is, i.time ≤ t ∧ i.time < e) → (∀ j ∈ js, j.time ≤ t ∧ j.time < e) →
      (∃ i ∈ is, i.time ≤ s) → (∃ j ∈ js, j.time ≤ s) →
      Done z t e (fun τ => min (X τ) (Y τ)) → Btw P s e z →
      (∀ j ∈ js, s < j.time → P j.time (min (X (mi j.time)) j.value)) →
      (∀ j ∈ js, j ∈ K) → Gh P Y s K t is →
      ∃ p z', partialAnd s z is js t = .ok (p :: z') ∧ p.time = s ∧
        Done (p :: z') s e (fun τ => min (X τ) (Y τ)) ∧ Btw P s e z' := by
  intro is
  induction is with
  | nil => intro _ _ _ _ _ _ _ _ _ _ _ h; obtain ⟨_, h, _⟩ := h; simp at h
  | cons i is ih =>
    intro js z t hst hte hX hY his hjs hit hjt hei hej hD hB hP2 hK hG
    obtain ⟨hit1, hie⟩ := hit i (by simp)
    rw [partialAnd]
    by_cases h1 : s < i.time
    · rw [if_pos h1]
      have hXi : ∀ τ, pl i.time ≤ τ → τ ≤ mi t → i.valueAt τ.time = X τ := by
        intro τ a b
        have := hX τ (le_trans (by simpa using h1.le) a) b
        rw [valR_cons_of_le a] at this
        exact Option.some.inj this
      -- a ghost sample (zero length) keeps the invariant with all times at least `i.time`
      have hcase : (Btw P i.time e z ∧ i.time < t) ∨ i.time = t := by
        rcases hit1.lt_or_eq with h | h
        · refine Or.inl ⟨?_, h⟩
          intro p hp
          exact ⟨h.trans_le (hD.from' p hp), (hB p hp).2⟩
        · exact Or.inr h
      have hseg : ∃ p z' j js', segmentAnd z i t js = .ok (p :: z', j :: js') ∧
          p.time = i.time ∧ j.time ≤ i.time ∧
          (∃ pre, js = pre ++ j :: js' ∧ ∀ p ∈ pre, i.time < p.time) ∧
          Done (p :: z') i.time e (fun τ => min (X τ) (Y τ)) ∧ Btw P s e (p :: z') := by
        rcases hcase with ⟨hB', hlt⟩ | heq
        · obtain ⟨p, z', j, js', a1, a2, a2', a3, a4, a5, a6⟩ := segmentAnd_spec hit1 hte hXi
            (fun τ a b => hY τ (le_trans (by simpa using h1.le) a) b) hjs hjt
            (by obtain ⟨j, hj, hj'⟩ := hej; exact ⟨j, hj, hj'.trans h1.le⟩) hD hB'
            (fun T a b => hP1 T (h1.trans a) (b.trans_le hte))
            (fun j hj hij => by
              have h3 := hXi (mi j.time) (by simpa using hij) (by simpa using (hjt j hj).1)
              rw [mi_time] at h3
              rw [h3]; exact hP2 j hj (h1.trans hij))
          have hYj : j.valueAt i.time = Y (pl i.time) := by
            have h3 := hY (pl i.time) (by simpa using h1.le) (by simpa using hlt)
            obtain ⟨pre, a4, a4'⟩ := a4
            rw [a4, valR_prefix (fun p hp => by simpa using a4' p hp),
              valR_cons_of_le (by simpa using a3)] at h3
            exact Option.some.inj h3
          have hXv : i.value = X (pl i.time) := by
            rw [← hXi (pl i.time) le_rfl (by simpa using hlt), pl_time, valueAt_self]
          refine ⟨p, z', j, js', a1, a2, a3, a4, a5, btw_cons (by rw [a2]; exact h1)
            (by rw [a2]; exact hie) (by rw [a2, a2', hYj, hXv]; exact hP1 _ h1 hie) ?_⟩
          intro q hq
          exact ⟨h1.trans (a6 q hq).1, (a6 q hq).2⟩
        · -- zero-length segment
          cases js with
          | nil => obtain ⟨_, h, _⟩ := hej; simp at h
          | cons j js =>
            have hjt1 := (hjt j (by simp)).1
            have hnl : ¬ i.time < j.time := by rw [heq]; exact not_lt.2 hjt1
            have hvac : ∀ (p : Sample), p.time = i.time → ∀ τ, pl p.time ≤ τ → τ ≤ mi t →
                p.valueAt τ.time = min (X τ) (Y τ) := by
              intro p hp τ a b
              have := a.trans b
              rw [hp, heq] at this
              simp at this
            have hiv : i.valueAt i.time = i.value := valueAt_self i
            have key : ∃ p, segmentAndLast i z t false j = .ok (p :: z) ∧ p.time = i.time ∧
                p.value = min i.value (j.valueAt i.time) := by
              simp only [segmentAndLast, ← heq, hiv]
              rcases lt_trichotomy i.value (j.valueAt i.time) with h | h | h
              · exact ⟨i, by simp [h, not_lt.2 h.le], rfl, (min_eq_left h.le).symm⟩
              · exact ⟨i, by simp [← h], rfl, (min_eq_left h.le).symm⟩
              · exact ⟨⟨i.time, j.valueAt i.time, j.derivative⟩, by simp [not_lt.2 h.le, h.ne'], rfl,
                  (min_eq_right h.le).symm⟩
            obtain ⟨p, hp, hpt, hpv⟩ := key
            have hcons := hD.cons (p := p) (by rw [hpt]; exact hit1) (hvac p hpt)
            refine ⟨p, z, j, js, ?_, hpt, not_lt.1 hnl, ⟨[], rfl, by simp⟩, ?_, ?_⟩
            · simp only [segmentAnd, segmentAndLoop, if_neg hnl, bind, Except.bind, hp]
            · rw [hpt] at hcons; exact hcons
            · refine btw_cons (by rw [hpt]; exact h1) (by rw [hpt]; exact hie) ?_ hB
              rw [hpt, hpv, heq]
              have hg := hG.1 heq hst
              rcases hjt1.lt_or_eq with hjlt | hjeq
              · have h3 := hY (mi t) (by simpa using hst) le_rfl
                rw [valR_cons_of_le (by simpa using hjlt)] at h3
                rw [show j.valueAt t = Y (mi t) from Option.some.inj h3]
                exact hg.2
              · rw [← hjeq, valueAt_self, hjeq]
                exact hg.1 j (hK j (by simp)) hjeq
      obtain ⟨p, z', j, js', a1, a2, a3, ⟨pre, a4, a4'⟩, a5, a6⟩ := hseg
      simp only [a1, bind, Except.bind]
      have his' := List.pairwise_cons.1 his
      have hjs' : RSorted (j :: js') := by
        rw [a4] at hjs; exact (List.pairwise_append.1 hjs).2.1
      have hmem : ∀ q ∈ j :: js', q ∈ js := by
        intro q hq; rw [a4]; exact List.mem_append_right _ hq
      have hX' : ∀ τ, pl s ≤ τ → τ ≤ mi i.time → valR is τ = some (X τ) := by
        intro τ a b
        have := hX τ a (b.trans (by simpa using hit1))
        rwa [valR_cons_of_lt (lt_of_le_of_lt b (by simp))] at this
      have hY' : ∀ τ, pl s ≤ τ → τ ≤ mi i.time → valR (j :: js') τ = some (Y τ) := by
        intro τ a b
        have := hY τ a (b.trans (by simpa using hit1))
        rwa [a4, valR_prefix (fun p hp => lt_of_le_of_lt b
          (by simpa using (a4' p hp).le))] at this
      have hei' : ∃ i ∈ is, i.time ≤ s := by
        obtain ⟨q, hq, hq'⟩ := hei
        rcases List.mem_cons.1 hq with rfl | hq
        · exact absurd hq' (not_le.2 h1)
        · exact ⟨q, hq, hq'⟩
      have hej' : ∃ q ∈ j :: js', q.time ≤ s := by
        obtain ⟨q, hq, hq'⟩ := hej
        rw [a4] at hq
        rcases List.mem_append.1 hq with hq | hq
        · exact absurd hq' (not_le.2 (h1.trans (a4' q hq)))
        · exact ⟨q, hq, hq'⟩
      have hjt' : ∀ q ∈ j :: js', q.time ≤ i.time ∧ q.time < e := by
        intro q hq
        refine ⟨?_, (hjt q (hmem q hq)).2⟩
        rcases List.mem_cons.1 hq with rfl | hq
        · exact a3
        · exact ((List.pairwise_cons.1 hjs').1 q hq).trans a3
      by_cases hji : j.time = i.time
      · rw [if_pos hji]
        refine ih js' (p :: z') i.time h1 hie.le hX' ?_ his'.2 (List.pairwise_cons.1 hjs').2
          (fun q hq => ⟨his'.1 q hq, (hit q (by simp [hq])).2⟩)
          (fun q hq => hjt' q (by simp [hq])) hei' ?_ a5 a6
          (fun q hq => hP2 q (hmem q (by simp [hq]))) (fun q hq => hK q (hmem q (by simp [hq]))) hG.2
        · intro τ a b
          have := hY' τ a b
          rwa [valR_cons_of_lt (lt_of_le_of_lt b (by simp [hji]))] at this
        · obtain ⟨q, hq, hq'⟩ := hej'
          rcases List.mem_cons.1 hq with rfl | hq
          · exact absurd hq' (by rw [hji]; exact not_le.2 h1)
          · exact ⟨q, hq, hq'⟩
      · rw [if_neg hji]
        exact ih (j :: js') (p :: z') i.time h1 hie.le hX' hY' his'.2 hjs'
          (fun q hq => ⟨his'.1 q hq, (hit q (by simp [hq])).2⟩) hjt' hei' hej' a5 a6
          (fun q hq => hP2 q (hmem q hq)) (fun q hq => hK q (hmem q hq)) hG.2
    · rw [if_neg h1]
      have hle : i.time ≤ s := not_lt.1 h1
      have hXi : ∀ τ, pl s ≤ τ → τ ≤ mi t → i.valueAt τ.time = X τ := by
        intro τ a b
        have := hX τ a b
        rw [valR_cons_of_le (le_trans (by simpa using hle) a)] at this
        exact Option.some.inj this
      by_cases h2 : i.time = s
      · rw [if_pos h2]
        subst h2
        obtain ⟨p, z', j, js', a1, a2, _, _, _, a5, a6⟩ := segmentAnd_spec hst.le hte hXi hY hjs hjt
          hej hD hB (fun T a b => hP1 T a (b.trans_le hte))
          (fun j hj hij => by
            have h3 := hXi (mi j.time) (by simpa using hij) (by simpa using (hjt j hj).1)
            rw [mi_time] at h3
            rw [h3]; exact hP2 j hj hij)
        exact ⟨p, z', by simp only [a1, bind, Except.bind], a2, a5, a6⟩
      · rw [if_neg h2]
        obtain ⟨p, z', j, js', a1, a2, _, _, _, a5, a6⟩ := segmentAnd_spec
          (i := ⟨s, i.valueAt s, i.derivative⟩) hst.le hte
          (fun τ a b => by rw [valueAt_move]; exact hXi τ a b) hY hjs hjt hej hD hB
          (fun T a b => hP1 T a (b.trans_le hte))
          (fun j hj hij => by
            have h3 := hXi (mi j.time) (by simpa using hij) (by simpa using (hjt j hj).1)
            rw [mi_time] at h3
            rw [valueAt_move, h3]; exact hP2 j hj hij)
        exact ⟨p, z', by simp only [a1, bind, Except.bind], a2, a5, a6⟩

end STLRom
