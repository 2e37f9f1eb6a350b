import Verif.Proofs.Pieces
import Verif.Spec.Stl

/-!
# What the leaves compute
-/

namespace STLRom
open Signal Spec

/-- The time of a row. -/
def rowTime (row : List ℚ) : ℚ := row.getD 0 0

/-- (time, value) pairs of the rows for a function of the row. -/
def colf (g : List ℚ → ℚ) (D : List (List ℚ)) : List (ℚ × ℚ) := D.map fun row => (rowTime row, g row)

theorem colf_append (g : List ℚ → ℚ) (D D' : List (List ℚ)) :
    colf g (D ++ D') = colf g D ++ colf g D' := by simp [colf]

/-- Sample times of a leaf on `[S, E]`. -/
def grid (D : List (List ℚ)) (S E : ℚ) : List ℚ :=
  S :: (D.map rowTime).filter fun t => decide (S < t ∧ t ≤ E)

theorem inc_ext : ∀ {l l' : List ℚ}, l.Pairwise (· < ·) → l'.Pairwise (· < ·) →
    (∀ x, x ∈ l ↔ x ∈ l') → l = l'
  | [], [], _, _, _ => rfl
  | [], a :: l', _, _, h => by have := (h a).2 (by simp); simp at this
  | a :: l, [], _, _, h => by have := (h a).1 (by simp); simp at this
  | a :: l, b :: l', h1, h2, h => by
    have c1 := List.pairwise_cons.1 h1
    have c2 := List.pairwise_cons.1 h2
    have hab : a = b := by
      rcases List.mem_cons.1 ((h a).1 (by simp)) with h' | h'
      · exact h'
      · rcases List.mem_cons.1 ((h b).2 (by simp)) with h'' | h''
        · exact h''.symm
        · exact absurd ((c2.1 a h').trans (c1.1 b h'')) (lt_irrefl _)
    subst hab
    congr 1
    refine inc_ext c1.2 c2.2 fun x => ⟨fun hx => ?_, fun hx => ?_⟩
    · rcases List.mem_cons.1 ((h x).1 (by simp [hx])) with h' | h'
      · subst h'; exact absurd (c1.1 _ hx) (lt_irrefl _)
      · exact h'
    · rcases List.mem_cons.1 ((h x).2 (by simp [hx])) with h' | h'
      · subst h'; exact absurd (c2.1 _ hx) (lt_irrefl _)
      · exact h'

theorem sinc_times {l : List Sample} (h : SInc l) : (times l).Pairwise (· < ·) :=
  List.pairwise_map.2 h

theorem sinc_of_times {l : List Sample} (h : (times l).Pairwise (· < ·)) : SInc l :=
  List.pairwise_map.1 h

theorem interp_prefix : ∀ {l m : List (ℚ × ℚ)} {q : ℚ × ℚ} {t : ℚ}, Inc (l ++ m) →
    l.getLast? = some q → t ≤ q.1 → interp .LINEAR (l ++ m) t = interp .LINEAR l t
  | [], _, _, _, _, h, _ => by simp at h
  | [(t0, v0)], [], _, _, _, _, _ => rfl
  | [(t0, v0)], (t1, v1) :: m, q, t, hi, h, ht => by
    simp only [List.getLast?_singleton, Option.some.injEq] at h
    subst h
    have h01 : t0 < t1 := (List.pairwise_cons.1 hi).1 (t1, v1) (by simp)
    simp only at ht
    rcases ht.lt_or_eq with h' | h'
    · simp [interp, h', not_le.2 h']
    · subst h'
      simp [interp, h01]
  | (t0, v0) :: (t1, v1) :: r, m, q, t, hi, h, ht => by
    rw [List.getLast?_cons_cons] at h
    have ih := interp_prefix (l := (t1, v1) :: r) (m := m) (List.pairwise_cons.1 hi).2 h ht
    simp only [List.cons_append] at ih ⊢
    simp only [interp, ih]

namespace Tr

theorem cell_getD {row : List ℚ} {k n : ℕ} (h : row.length = n + 1) (hk : k ≤ n) :
    cell row k = .ok (row.getD k 0) := by
  have : k < row.length := by omega
  simp [cell, this]

/-- The reading loops of both leaves. -/
def readLoop (ip : Interpol) (g : List ℚ → ℚ) (stop : ℚ) : List (List ℚ) → Signal → ℕ → ℚ → ℚ →
    M (Signal × ℕ × ℚ × ℚ)
  | [], z, td, t, v => .ok (z, td, t, v)
  | row :: rows, z, td, t, v =>
    if t ≤ stop then do
      let z' ← z.appendSample0 ip (rowTime row) (g row)
      readLoop ip g stop rows z' (td + 1) (rowTime row) (g row)
    else .ok (z, td, t, v)

theorem sigRead_eq (ip : Interpol) (i n : ℕ) (stop : ℚ) (hi : i ≤ n) :
    ∀ (rows : List (List ℚ)) (z : Signal) (td : ℕ) (t v : ℚ), (∀ r ∈ rows, r.length = n + 1) →
      sigRead ip i stop rows z td t v = readLoop ip (fun r => r.getD i 0) stop rows z td t v
  | [], _, _, _, _, _ => rfl
  | row :: rows, z, td, t, v, h => by
    have hr := h row (by simp)
    simp only [sigRead, readLoop, cell_getD hr (Nat.zero_le _), cell_getD hr hi, rowTime]
    split_ifs
    · cases hz : z.appendSample0 ip (row.getD 0 0) (row.getD i 0) with
      | error f => simp only [bind, Except.bind, hz]
      | ok z' =>
        simp only [bind, Except.bind, hz]
        exact sigRead_eq ip i n stop hi rows z' (td + 1) _ _ fun r hr => h r (by simp [hr])
    · rfl

theorem constRead_eq (ip : Interpol) (n : ℕ) (c stop : ℚ) :
    ∀ (rows : List (List ℚ)) (z : Signal) (td : ℕ) (t v : ℚ), (∀ r ∈ rows, r.length = n + 1) →
      constRead ip c stop rows z td t =
        (readLoop ip (fun _ => c) stop rows z td t v).map fun x => (x.1, x.2.1, x.2.2.1)
  | [], _, _, _, _, _ => rfl
  | row :: rows, z, td, t, v, h => by
    have hr := h row (by simp)
    simp only [constRead, readLoop, cell_getD hr (Nat.zero_le _), rowTime]
    split_ifs
    · cases hz : z.appendSample0 ip (row.getD 0 0) c with
      | error f => simp only [bind, Except.bind, hz, Except.map]
      | ok z' =>
        simp only [bind, Except.bind, hz]
        exact constRead_eq ip n c stop rows z' (td + 1) _ _ fun r hr => h r (by simp [hr])
    · rfl

theorem readLoop_spec (ip : Interpol) (g : List ℚ → ℚ) (stop : ℚ) :
    ∀ (rows : List (List ℚ)) (pre : List (ℚ × ℚ)) (td : ℕ) (t v : ℚ), Inc (pre ++ colf g rows) →
      (∀ q, pre.getLast? = some q → q = (t, v)) →
      ∃ read rest t' v', rows = read ++ rest ∧
        readLoop ip g stop rows (linSig ip pre) td t v =
          .ok (linSig ip (pre ++ colf g read), td + read.length, t', v') ∧
        ((colf g read).getLast? = some (t', v') ∨ read = [] ∧ t' = t ∧ v' = v) ∧
        (rest = [] ∨ stop < t')
  | [], pre, td, t, v, _, _ => by
    refine ⟨[], [], t, v, rfl, ?_, Or.inr ⟨rfl, rfl, rfl⟩, Or.inl rfl⟩
    simp [readLoop, colf]
  | row :: rows, pre, td, t, v, hi, hl => by
    by_cases h : t ≤ stop
    · have happ : appendSample0 ip (linSig ip pre) (rowTime row) (g row) =
          .ok (linSig ip (pre ++ [(rowTime row, g row)])) := by
        rw [appendSample0_linSig]
        cases hp : pre.getLast? with
        | none =>
          rw [List.getLast?_eq_none_iff] at hp
          subst hp
          rfl
        | some q =>
          have : q.1 < rowTime row := (List.pairwise_append.1 hi).2.2 q (List.mem_of_getLast? hp)
            (rowTime row, g row) (by simp [colf])
          simp only [if_pos this]
      obtain ⟨read, rest, t', v', h1, h2, h3, h4⟩ := readLoop_spec ip g stop rows
        (pre ++ [(rowTime row, g row)]) (td + 1) (rowTime row) (g row)
        (by simpa [colf] using hi) (by simp)
      refine ⟨row :: read, rest, t', v', by simp [h1], ?_, Or.inl ?_, h4⟩
      · simp only [readLoop, if_pos h, happ, bind, Except.bind, h2, colf, List.map_cons,
          List.append_assoc, List.cons_append, List.nil_append, List.length_cons]
        congr 3
        omega
      · rcases h3 with h3 | ⟨h3, h5, h6⟩
        · simp only [colf, List.map_cons] at h3 ⊢
          rw [getLast?_cons' _ (by intro e; rw [e] at h3; simp at h3), h3]
        · subst h3; simp [colf, h5, h6]
    · exact ⟨[], row :: rows, t, v, rfl, by simp [readLoop, h, colf], Or.inr ⟨rfl, rfl, rfl⟩,
        Or.inr (not_le.1 h)⟩

/-- `leafTrim` when the read signal, cut at the stop time, ends there. -/
theorem leafTrim_spec {z : Signal} {S E t v : ℚ} (hz : WFB z) (hs : SInc z.samples)
    (hb : z.beginTime ≤ S) (hSE : S ≤ E) (he : E < t ∨ z.endTime = E) (hk : KeepsSlope z S) :
    ∃ z', leafTrim S E z t v = .ok z' ∧ z'.beginTime = S ∧ z'.endTime = E ∧ WF0 z' ∧
      SInc z'.samples ∧
      (∀ τ, pl S ≤ τ → τ ≤ pl E → val z'.samples τ = val z.samples τ) ∧
      times z'.samples = S :: (times z.samples).filter fun t => decide (S < t ∧ t ≤ E) := by
  have hz1 : (if E < t then { z with endTime := E } else z) = { z with endTime := E } := by
    split_ifs with h
    · rfl
    · have : z.endTime = E := he.resolve_left h
      rw [← this]
  have hw : WFB { z with endTime := E } := ⟨hz.ne, hz.head, hz.sorted⟩
  obtain ⟨z', h1, h2, h3, h4, h5, h6, _, h8, h9, _⟩ := resize_inside (x := { z with endTime := E }) v
    hw hb hSE le_rfl hk
  refine ⟨z', ?_, h2, h3, h4, h6 hs, h5, ?_⟩
  · unfold leafTrim
    rw [hz1]
    simp only
    split_ifs with h
    · rw [max_eq_right hSE]; exact h1
    · have : S = E := le_antisymm hSE (not_lt.1 h)
      subst this
      exact h1
  · have hs' := h6 hs
    refine inc_ext (sinc_times hs') ?_ ?_
    · refine List.pairwise_cons.2 ⟨fun a ha => ?_, (sinc_times hs).filter _⟩
      simp only [List.mem_filter, decide_eq_true_eq] at ha
      exact ha.2.1
    · intro x
      obtain ⟨p, l, hl, hp⟩ := h4.exists_cons
      rw [h2] at hp
      simp only [List.mem_cons, List.mem_filter, List.mem_map, decide_eq_true_eq]
      constructor
      · rintro ⟨q, hq, rfl⟩
        have hqe : q.time ≤ E := by rw [← h3]; exact h4.le_end q hq
        rcases h8 q hq with h | ⟨h, _⟩
        · rw [hl] at hq hs'
          rcases List.mem_cons.1 hq with rfl | hq
          · exact Or.inl hp
          · have := (List.pairwise_cons.1 hs').1 q hq
            exact Or.inr ⟨⟨q, h, rfl⟩, hp ▸ this, hqe⟩
        · exact Or.inl h
      · rintro (rfl | ⟨⟨q, hq, rfl⟩, h1, h2⟩)
        · exact ⟨p, by simp [hl], hp⟩
        · exact ⟨q, h9 q hq h1 h2, rfl⟩

theorem lin_times' (ip : Interpol) (l : List (ℚ × ℚ)) : times (lin ip l) = l.map Prod.fst := by
  conv_rhs => rw [← lin_times ip l]
  simp

/-- A first run of a leaf over data that covers `[S, E]`. -/
theorem leaf_first {g : List ℚ → ℚ} {D : List (List ℚ)} {S E : ℚ} {td : ℕ} (hi : Inc (colf g D))
    (h0 : ∀ row, D.head? = some row → rowTime row ≤ S) (hE : 0 ≤ E) (hSE : S ≤ E)
    (hne : D ≠ []) (h1 : ∀ row, D.getLast? = some row → E ≤ rowTime row) :
    ∃ z0 k t v, readLoop .LINEAR g E D Signal.empty td 0 0 = .ok (z0, td + k, t, v) ∧
      (∀ row ∈ D.drop k, E < rowTime row) ∧
      ∀ w, ∃ z, leafTrim S E z0 t w = .ok z ∧
        z.beginTime = S ∧ z.endTime = E ∧ times z.samples = grid D S E ∧
        Pieces (fun t => (interp .LINEAR (colf g D) t).getD 0) E z.samples := by
  obtain ⟨read, rest, t', v', e1, e2, e3, e4⟩ := readLoop_spec .LINEAR g E D [] td 0 0
    (by simpa using hi) (by simp)
  have hread : read ≠ [] := by
    rintro rfl
    simp only [List.nil_append] at e1
    subst e1
    rcases e4 with h | h
    · exact hne h
    · rcases e3 with h3 | ⟨_, h3, _⟩
      · simp [colf] at h3
      · rw [h3] at h; exact absurd h (not_lt.2 hE)
  replace e3 : (colf g read).getLast? = some (t', v') := e3.resolve_right fun h => hread h.1
  have hi' : Inc (colf g read ++ colf g rest) := by rw [← colf_append, ← e1]; exact hi
  have hir : Inc (colf g read) := (List.pairwise_append.1 hi').1
  obtain ⟨r0, rs, hr⟩ := List.exists_cons_of_ne_nil hread
  have hEt : E ≤ t' := by
    rcases e4 with h | h
    · subst h
      simp only [List.append_nil] at e1
      subst e1
      obtain ⟨row, hrow⟩ : ∃ row, D.getLast? = some row :=
        ⟨_, List.getLast?_eq_some_getLast hread⟩
      have : (colf g D).getLast? = some (rowTime row, g row) := by
        simp [colf, List.getLast?_map, hrow]
      rw [e3] at this
      simp only [Option.some.injEq, Prod.mk.injEq] at this
      rw [this.1]; exact h1 row hrow
    · exact h.le
  have hwf : WF (linSig .LINEAR (colf g read)) := by
    rw [hr]; exact linSig_wf _ (by rw [hr] at hir; exact hir)
  have hsmp := linSig_samples .LINEAR (colf g read)
  have hsinc : SInc (linSig .LINEAR (colf g read)).samples := by
    rw [hsmp]; exact lin_sorted _ hir
  have hbeg : (linSig .LINEAR (colf g read)).beginTime = rowTime r0 := by
    rw [hr]; exact linSig_begin
  have hend := linSig_end (ip := .LINEAR) e3
  have hr0 : rowTime r0 ≤ S := h0 r0 (by rw [e1, hr]; rfl)
  have hks : KeepsSlope (linSig .LINEAR (colf g read)) S := by
    right; left
    have hl := lin_getLast? .LINEAR (colf g read)
    rw [e3] at hl
    exact ⟨_, by rw [hsmp]; exact List.mem_of_getLast? hl, hSE.trans hEt⟩
  have hrest : ∀ row ∈ rest, E < rowTime row := by
    intro row hrow
    have := (List.pairwise_append.1 hi').2.2 (t', v') (List.mem_of_getLast? e3)
      (rowTime row, g row) (List.mem_map.2 ⟨row, hrow, rfl⟩)
    exact lt_of_le_of_lt hEt this
  refine ⟨_, _, _, _, e2, by simpa [e1] using hrest, fun w => ?_⟩
  obtain ⟨z, c1, c2, c3, c4, c5, c6, c7⟩ := leafTrim_spec (t := t') (v := w)
    hwf.toWF0.wfb hsinc (by rw [hbeg]; exact hr0) hSE
    (by rw [hend]; exact hEt.lt_or_eq.imp id Eq.symm) hks
  refine ⟨z, by simpa using c1, c2, c3, ?_, ?_⟩
  · rw [c7, hsmp, lin_times', grid, e1]
    simp only [colf, List.map_map, List.map_append, List.filter_append]
    congr 1
    have hnil : (rest.map rowTime).filter (fun t => decide (S < t ∧ t ≤ E)) = [] := by
      rw [List.filter_eq_nil_iff]
      intro a ha
      obtain ⟨row, hrow, rfl⟩ := List.mem_map.1 ha
      have := hrest row hrow
      simp only [decide_eq_true_eq, not_and, not_le]
      exact fun _ => this
    rw [hnil, List.append_nil]
    rfl
  · obtain ⟨p, l, hl, hp⟩ := c4.exists_cons
    rw [hl]
    refine pieces_of_val (hl ▸ c5) (fun q hq => by rw [← c3]; exact c4.le_end q (hl ▸ hq)) ?_
    intro τ a b
    rw [hp, c2] at a
    rw [← hl, c6 τ a b, hsmp]
    have hτ := le_pl_iff.1 b
    have hτ0 := pl_le_iff a
    have hpl : val (lin .LINEAR (colf g read)) (pl τ.time) =
        some ((interp .LINEAR (colf g D) τ.time).getD 0) := by
      have hv := hwf.val (τ := pl τ.time) (by rw [hbeg]; simpa using hr0.trans hτ0)
      rw [hsmp] at hv
      have := val_lin_pl .LINEAR (colf g read) τ.time hir
      rw [e1, colf_append, interp_prefix hi' e3 (hτ.trans hEt), ← this, hv]
      rfl
    rcases Pt.cases τ with h | h
    · rw [h]; exact hpl
    · rw [h]
      simp only [mi_time]
      rw [h, pl_le_mi] at a
      rw [val_lin_mi _ _ hir, hpl]
      intro q hq
      have hr0S : q.1 = rowTime r0 := by
        rw [hr] at hq
        simp only [colf, List.map_cons, List.head?_cons, Option.some.injEq] at hq
        rw [← hq]
      rw [hr0S]
      exact lt_of_le_of_lt hr0 a

theorem times_setBack (l : List Sample) (d : ℚ) : times (setBackDerivative l d) = times l := by
  unfold setBackDerivative
  cases h : l.getLast? with
  | none => rfl
  | some b =>
    obtain ⟨l', rfl⟩ := getLast?_eq_some_append h
    simp

theorem grid_inc {D : List (List ℚ)} (hD : (D.map rowTime).Pairwise (· < ·)) (S E : ℚ) :
    (grid D S E).Pairwise (· < ·) := by
  refine List.pairwise_cons.2 ⟨fun a ha => ?_, hD.filter _⟩
  simp only [List.mem_filter, decide_eq_true_eq] at ha
  exact ha.2.1

theorem grid_le {D : List (List ℚ)} {S E : ℚ} (hSE : S ≤ E) : ∀ t ∈ grid D S E, t ≤ E := by
  intro t ht
  rcases List.mem_cons.1 ht with rfl | ht
  · exact hSE
  · simp only [List.mem_filter, decide_eq_true_eq] at ht
    exact ht.2.2

theorem grid_wf {D : List (List ℚ)} (hD : (D.map rowTime).Pairwise (· < ·)) {S E : ℚ} {z : Signal}
    (hSE : S ≤ E) (hb : z.beginTime = S) (he : z.endTime = E)
    (ht : times z.samples = grid D S E) : WF z ∧ SInc z.samples := by
  have hs : SInc z.samples := sinc_of_times (by rw [ht]; exact grid_inc hD S E)
  rcases hz : z.samples with _ | ⟨p, l⟩
  · simp [hz, grid] at ht
  rw [hz] at ht
  simp only [times, List.map_cons, grid, List.cons.injEq] at ht
  refine ⟨⟨⟨by simp [hz], ?_, hs.sorted, ?_⟩, ?_⟩, hz ▸ hs⟩
  · intro q hq
    simp only [hz, List.head?_cons, Option.some.injEq] at hq
    rw [← hq, hb, ht.1]
  · intro q hq
    rw [he]
    refine grid_le (D := D) hSE _ ?_
    have : q.time ∈ times (p :: l) := List.mem_map.2 ⟨q, hz ▸ hq, rfl⟩
    simpa [times, grid, ht.1, ht.2] using this
  · intro q hq
    rw [hb, ← ht.1]
    simp only [hz, List.tail_cons] at hq
    exact (List.pairwise_cons.1 (hz ▸ hs)).1 q hq

theorem filter_grid {D : List (List ℚ)} {S E : ℚ} :
    (grid D S E).filter (fun t => decide (S < t ∧ t ≤ E)) =
      (D.map rowTime).filter fun t => decide (S < t ∧ t ≤ E) := by
  rw [grid, List.filter_cons_of_neg (by simp), List.filter_filter]
  simp

/-- Any further run of a leaf. -/
theorem leaf_again {g : List ℚ → ℚ} {D : List (List ℚ)} {S E : ℚ} {td : ℕ} {z : Signal}
    (hD : (D.map rowTime).Pairwise (· < ·))
    (hE : 0 ≤ E) (hSE : S ≤ E) (hb : z.beginTime = S) (he : z.endTime = E)
    (ht : times z.samples = grid D S E)
    (hr : ∀ row ∈ D.drop td, E < rowTime row) :
    ∃ z0 k t v, readLoop .LINEAR g E (D.drop td) z td 0 0 = .ok (z0, td + k, t, v) ∧
      (∀ w, ∃ z', leafTrim S E z0 t w = .ok z' ∧
      z'.beginTime = S ∧ z'.endTime = E ∧ times z'.samples = grid D S E) ∧
      ∀ row ∈ D.drop (td + k), E < rowTime row := by
  obtain ⟨hw, hs⟩ := grid_wf hD hSE hb he ht
  have done : ∀ (z0 : Signal) (t w : ℚ), WFB z0 → SInc z0.samples → z0.beginTime = S →
      (E < t ∨ z0.endTime = E) → (times z0.samples).filter (fun t => decide (S < t ∧ t ≤ E)) =
        (D.map rowTime).filter (fun t => decide (S < t ∧ t ≤ E)) →
      ∃ z', leafTrim S E z0 t w = .ok z' ∧ z'.beginTime = S ∧ z'.endTime = E ∧
        times z'.samples = grid D S E := by
    intro z0 t w c1 c2 c3 c4 c5
    obtain ⟨z', d1, d2, d3, _, _, _, d7⟩ := leafTrim_spec (v := w) c1 c2 c3.le hSE c4 (Or.inl c3)
    exact ⟨z', d1, d2, d3, by rw [d7, c5]; rfl⟩
  rcases hd : D.drop td with _ | ⟨row, rows⟩
  · refine ⟨z, 0, 0, 0, by simp [readLoop], fun w => done z 0 w hw.toWF0.wfb hs hb (Or.inr he) ?_, ?_⟩
    · rw [ht, filter_grid]
    · simp [hd]
  · have hrow := hr row (by simp [hd])
    obtain ⟨b, hbl⟩ : ∃ b, z.samples.getLast? = some b :=
      ⟨_, List.getLast?_eq_some_getLast hw.ne⟩
    have hbE : b.time ≤ E := he ▸ hw.le_end b (List.mem_of_getLast? hbl)
    have happ : ∃ d', appendSample0 .LINEAR z (rowTime row) (g row) =
        .ok ⟨setBackDerivative z.samples d' ++ [⟨rowTime row, g row, 0⟩], z.beginTime, rowTime row⟩ := by
      refine ⟨(g row - b.value) / (rowTime row - b.time), ?_⟩
      rw [appendSample0, appendSample.eq_def,
        if_neg (by rw [he]; simp only [not_and]; intro h'; exact absurd hrow (not_lt.2 h'))]
      have : rowTime row ≠ b.time := (lt_of_le_of_lt hbE hrow).ne'
      simp only [hbl, qdiv, sub_eq_zero, if_neg this, bind, Except.bind]
    obtain ⟨d', happ⟩ := happ
    refine ⟨⟨setBackDerivative z.samples d' ++ [⟨rowTime row, g row, 0⟩], z.beginTime, rowTime row⟩,
      1, rowTime row, g row, ?_, fun w => ?_, ?_⟩
    · simp only [readLoop, if_pos hE, happ, bind, Except.bind]
      cases rows with
      | nil => rfl
      | cons r rs => simp only [readLoop, if_neg (not_le.2 hrow)]
    · have htm : times (setBackDerivative z.samples d' ++ [⟨rowTime row, g row, 0⟩]) =
          grid D S E ++ [rowTime row] := by
        rw [times, List.map_append]
        show times _ ++ _ = _
        rw [times_setBack, ht]; rfl
      have hsi : SInc (setBackDerivative z.samples d' ++ [⟨rowTime row, g row, 0⟩]) := by
        refine sinc_of_times ?_
        rw [htm]
        refine List.pairwise_append.2 ⟨grid_inc hD S E, by simp, ?_⟩
        intro a ha c hc
        simp only [List.mem_singleton] at hc
        rw [hc]
        exact lt_of_le_of_lt (grid_le hSE a ha) hrow
      refine done _ _ w ⟨by simp, ?_, hsi.sorted⟩ hsi hb (Or.inl hrow) ?_
      · intro p hp
        have : (times (setBackDerivative z.samples d' ++ [⟨rowTime row, g row, 0⟩])).head? =
            some p.time := by
          rw [times, List.head?_map, hp]; rfl
        rw [htm] at this
        simp only [grid, List.cons_append, List.head?_cons, Option.some.injEq] at this
        rw [← this, hb]
      · rw [htm, List.filter_append, filter_grid, List.filter_singleton]
        simp [not_le.2 hrow]
    · intro r hr'
      refine hr r ?_
      rw [← List.drop_drop, hd] at hr'
      rw [hd]
      exact List.mem_of_mem_drop hr'

end Tr
end STLRom
