import Verif.Proofs.Total
import Verif.Proofs.FormulaLU

/-!
# Evaluating formulas without until never faults

On any non-empty trace, whatever part of the formula's horizon it covers.
-/

namespace STLRom
open Signal Spec

/-! ## Times of a leaf -/

/-- What `resize` to `[u, e]` does to the sample times of a signal that begins at `b` and reaches
`e`. -/
def trimTimes (b : ℚ) (L : List ℚ) (u e : ℚ) : List ℚ :=
  ((if u < b then u :: L else
    match L.dropWhile (fun t => decide (t < u)) with
    | [] => [u]
    | p :: r => if u < p then u :: p :: r else p :: r).reverse.dropWhile
      fun t => decide (e < t)).reverse

theorem trimFront_times (u : ℚ) : ∀ (l : List Sample) (f : Sample),
    times (trimFront u f l).2 = (times l).dropWhile fun t => decide (t < u)
  | [], f => rfl
  | p :: l, f => by
    unfold trimFront
    by_cases h : p.time < u
    · rw [if_pos h, trimFront_times u l p]
      simp [List.dropWhile_cons_of_pos, h]
    · rw [if_neg h]
      simp [List.dropWhile_cons_of_neg, h]

theorem trimBack_times (e : ℚ) (l : List Sample) :
    times (trimBack e l) = ((times l).reverse.dropWhile fun t => decide (e < t)).reverse := by
  unfold trimBack times
  rw [List.map_reverse, ← List.map_reverse (l := l), List.dropWhile_map]
  rfl

theorem resize_times {x : Signal} {u e : ℚ} (v : ℚ) (hx : x.samples ≠ []) (hu : u ≤ e)
    (he : e ≤ x.endTime) :
    ∃ z, resize x u e v = .ok z ∧ Hd z ∧ z.beginTime = u ∧ z.endTime = e ∧
      times z.samples = trimTimes x.beginTime (times x.samples) u e := by
  have ht : (0 : ℚ) < tol := tol_pos
  obtain ⟨z, h1, h2, h3, h4⟩ := resize_hd (s := u) (t := e) v hx (by linarith)
  rw [if_neg (not_lt.2 hu)] at h4
  refine ⟨z, h1, h2, h3, h4, ?_⟩
  unfold resize at h1
  rw [if_neg (by linarith), if_neg (not_lt.2 hu)] at h1
  obtain ⟨x1, k1, k2⟩ := bind_eq_ok.1 h1
  have k3 : x1.endTime = x.endTime := by
    obtain ⟨p, l, e', a1, _, _, a2⟩ := resizeFront_total u hx
    rw [a1] at k1
    rw [← Except.ok.inj k1]
    exact a2 (hu.trans he)
  have k4 : times x1.samples = if u < x.beginTime then u :: times x.samples else
      match (times x.samples).dropWhile (fun t => decide (t < u)) with
      | [] => [u]
      | p :: r => if u < p then u :: p :: r else p :: r := by
    unfold resizeFront at k1
    by_cases h0 : u < x.beginTime
    · rw [if_pos h0] at k1 ⊢
      obtain ⟨p, l, hl⟩ := List.exists_cons_of_ne_nil hx
      rw [hl] at k1 ⊢
      rw [← Except.ok.inj k1]
      rfl
    · rw [if_neg h0] at k1 ⊢
      have := trimFront_times u x.samples Sample.zero
      rw [← this]
      generalize trimFront u Sample.zero x.samples = fr at k1
      obtain ⟨first, rest⟩ := fr
      cases rest with
      | nil => rw [← Except.ok.inj k1]; rfl
      | cons p r =>
        simp only [times, List.map_cons] at k1 ⊢
        by_cases h1 : u < p.time
        · rw [if_pos h1] at k1 ⊢
          rw [← Except.ok.inj k1]; rfl
        · rw [if_neg h1] at k1 ⊢
          rw [← Except.ok.inj k1]; rfl
  unfold resizeBack at k2
  rw [if_neg (by rw [k3]; exact not_lt.2 he)] at k2
  simp only [bind, Except.bind, Except.ok.injEq] at k2
  have hne : trimBack e x1.samples ≠ [] := by
    intro h0
    have : times x1.samples ≠ [] ∧ ∀ t, (times x1.samples).head? = some t → t = u := by
      obtain ⟨p, l, e', a1, a2, _⟩ := resizeFront_total u hx
      rw [a1] at k1
      rw [← Except.ok.inj k1]
      simp [a2]
    obtain ⟨p, l, hl⟩ := List.exists_cons_of_ne_nil (l := x1.samples) (by
      intro h; rw [h] at this; simp at this)
    have hp : p.time = u := this.2 _ (by simp [hl])
    obtain ⟨l', h5, _⟩ := trimBack_head (t := e) (l := l) (by rw [hp]; exact hu)
    rw [hl, h5] at h0
    simp at h0
  rw [if_neg hne] at k2
  rw [← k2]
  show times (trimBack e x1.samples) = _
  rw [trimBack_times, k4]
  rfl

/-- Times from `u` on, increasing. -/
structure Grid (L : List ℚ) (u e : ℚ) : Prop where
  head : L.head? = some u
  inc : L.Pairwise (· < ·)
  le : ∀ t ∈ L, t ≤ e

theorem dropWhile_le {P : ℚ → Bool} {L : List ℚ} : (L.dropWhile P).Sublist L :=
  (List.dropWhile_suffix P).sublist

theorem pairwise_head_lt {p : ℚ} {r : List ℚ} (h : (p :: r).Pairwise (· < ·)) : ∀ t ∈ r, p < t :=
  (List.pairwise_cons.1 h).1

theorem dropBack_le (e : ℚ) : ∀ {L : List ℚ}, L.Pairwise (· < ·) →
    ∀ t ∈ (L.reverse.dropWhile fun t => decide (e < t)).reverse, t ≤ e := by
  intro L hL t ht
  rw [List.mem_reverse] at ht
  have hs : L.reverse.Pairwise (· > ·) := List.pairwise_reverse.2 hL
  generalize L.reverse = M at hs ht
  induction M with
  | nil => simp at ht
  | cons p M ih =>
    by_cases h : e < p
    · rw [List.dropWhile_cons_of_pos (by simpa using h)] at ht
      exact ih (List.pairwise_cons.1 hs).2 ht
    · rw [List.dropWhile_cons_of_neg (by simpa using h)] at ht
      rcases List.mem_cons.1 ht with rfl | ht
      · exact not_lt.1 h
      · exact ((List.pairwise_cons.1 hs).1 t ht).le.trans (not_lt.1 h)

theorem dropBack_head {e u : ℚ} : ∀ {L : List ℚ}, L.head? = some u → u ≤ e →
    ((L.reverse.dropWhile fun t => decide (e < t)).reverse).head? = some u := by
  intro L hL hu
  obtain ⟨M, rfl⟩ : ∃ M, L = u :: M := by
    cases L with
    | nil => simp at hL
    | cons p M => simp at hL; exact ⟨M, by rw [hL]⟩
  rw [List.reverse_cons, List.head?_reverse]
  generalize M.reverse = N
  induction N with
  | nil => simp [List.dropWhile_cons_of_neg, not_lt.2 hu]
  | cons p N ih =>
    by_cases h : e < p
    · rw [List.cons_append, List.dropWhile_cons_of_pos (by simpa using h)]; exact ih
    · rw [List.cons_append, List.dropWhile_cons_of_neg (by simpa using h)]
      rw [← List.cons_append, List.getLast?_append]
      simp

theorem trimTimes_grid {b u e : ℚ} {L : List ℚ} (hL : L.Pairwise (· < ·)) (hb : L.head? = some b)
    (hu : u ≤ e) : Grid (trimTimes b L u e) u e := by
  have key : ∀ M : List ℚ, M.head? = some u → M.Pairwise (· < ·) →
      Grid ((M.reverse.dropWhile fun t => decide (e < t)).reverse) u e := by
    intro M h1 h2
    refine ⟨dropBack_head h1 hu, ?_, dropBack_le e h2⟩
    rw [List.pairwise_reverse]
    exact (List.pairwise_reverse.2 h2).sublist dropWhile_le
  unfold trimTimes
  by_cases h0 : u < b
  · rw [if_pos h0]
    refine key _ rfl (List.pairwise_cons.2 ⟨fun t ht => ?_, hL⟩)
    cases L with
    | nil => simp at ht
    | cons p r =>
      simp only [List.head?_cons, Option.some.injEq] at hb
      rcases List.mem_cons.1 ht with rfl | ht
      · rw [hb]; exact h0
      · exact h0.trans (hb ▸ pairwise_head_lt hL t ht)
  · rw [if_neg h0]
    have hd : (L.dropWhile fun t => decide (t < u)).Pairwise (· < ·) := hL.sublist dropWhile_le
    have hh : ∀ p r, (L.dropWhile fun t => decide (t < u)) = p :: r → u ≤ p := by
      intro p r h
      have := List.head?_dropWhile_not (fun t => decide (t < u)) L
      rw [h] at this
      simpa using this
    generalize L.dropWhile (fun t => decide (t < u)) = M at hd hh
    cases M with
    | nil => exact key _ rfl (by simp)
    | cons p r =>
      simp only
      by_cases h1 : u < p
      · rw [if_pos h1]
        refine key _ rfl (List.pairwise_cons.2 ⟨fun t ht => ?_, hd⟩)
        rcases List.mem_cons.1 ht with rfl | ht
        · exact h1
        · exact h1.trans (pairwise_head_lt hd t ht)
      · rw [if_neg h1]
        have : p = u := le_antisymm (not_lt.1 h1) (hh p r rfl)
        exact key _ (by simp [this]) hd

/-- Trimming again, after a later row was appended. -/
theorem trimTimes_again {u e t : ℚ} {L : List ℚ} (h : Grid L u e) (ht : e < t) :
    trimTimes u (L ++ [t]) u e = L := by
  obtain ⟨M, rfl⟩ : ∃ M, L = u :: M := by
    have := h.head
    cases L with
    | nil => simp at this
    | cons p M => simp at this; exact ⟨M, by rw [this]⟩
  unfold trimTimes
  rw [if_neg (lt_irrefl _), List.cons_append, List.dropWhile_cons_of_neg (by simp)]
  simp only [lt_irrefl, if_false]
  rw [← List.cons_append, List.reverse_append, List.reverse_singleton, List.singleton_append,
    List.dropWhile_cons_of_pos (by simpa using ht)]
  have : ((u :: M).reverse.dropWhile fun t => decide (e < t)) = (u :: M).reverse := by
    have hle : ∀ t ∈ (u :: M).reverse, t ≤ e := fun t ht => h.le t (List.mem_reverse.1 ht)
    generalize (u :: M).reverse = N at hle
    cases N with
    | nil => rfl
    | cons p N => rw [List.dropWhile_cons_of_neg (by simpa using hle p (by simp))]
  rw [this, List.reverse_reverse]

theorem trimTimes_same {u e : ℚ} {L : List ℚ} (h : Grid L u e) : trimTimes u L u e = L := by
  obtain ⟨M, rfl⟩ : ∃ M, L = u :: M := by
    have := h.head
    cases L with
    | nil => simp at this
    | cons p M => simp at this; exact ⟨M, by rw [this]⟩
  unfold trimTimes
  rw [if_neg (lt_irrefl _), List.dropWhile_cons_of_neg (by simp)]
  simp only [lt_irrefl, if_false]
  have : ((u :: M).reverse.dropWhile fun t => decide (e < t)) = (u :: M).reverse := by
    have hle : ∀ t ∈ (u :: M).reverse, t ≤ e := fun t ht => h.le t (List.mem_reverse.1 ht)
    generalize (u :: M).reverse = N at hle
    cases N with
    | nil => rfl
    | cons p N => rw [List.dropWhile_cons_of_neg (by simpa using hle p (by simp))]
  rw [this, List.reverse_reverse]

/-! ## Reading rows -/

/-- The rows that the reading loop of a leaf consumes. -/
def reads (stop : ℚ) : ℚ → List (List ℚ) → List (List ℚ)
  | _, [] => []
  | t, row :: rows => if t ≤ stop then row :: reads stop (rowTime row) rows else []

theorem reads_prefix (stop : ℚ) : ∀ (t : ℚ) (rows : List (List ℚ)), reads stop t rows <+: rows
  | _, [] => List.prefix_rfl
  | t, row :: rows => by
    unfold reads
    split
    · exact (List.prefix_cons_inj row).2 (reads_prefix stop _ rows)
    · exact List.nil_prefix

/-- The time of the last row read. -/
def lastRead (stop t : ℚ) (rows : List (List ℚ)) : ℚ :=
  ((reads stop t rows).getLast?.map rowTime).getD t

theorem readLoop_reads (ip : Interpol) (g : List ℚ → ℚ) (stop : ℚ) :
    ∀ (rows : List (List ℚ)) (pre : List (ℚ × ℚ)) (td : ℕ) (t v : ℚ), Inc (pre ++ colf g rows) →
      ∃ v', Tr.readLoop ip g stop rows (linSig ip pre) td t v =
          .ok (linSig ip (pre ++ colf g (reads stop t rows)), td + (reads stop t rows).length,
            lastRead stop t rows, v') ∧
        (rows.drop (reads stop t rows).length = [] ∨ stop < lastRead stop t rows)
  | [], pre, td, t, v, _ => ⟨v, by simp [Tr.readLoop, colf, reads, lastRead], Or.inl rfl⟩
  | row :: rows, pre, td, t, v, hi => by
    by_cases h : t ≤ stop
    · have happ : appendSample0 ip (linSig ip pre) (rowTime row) (g row) =
          .ok (linSig ip (pre ++ [(rowTime row, g row)])) := by
        rw [appendSample0_linSig]
        cases hp : pre.getLast? with
        | none =>
          rw [List.getLast?_eq_none_iff] at hp
          subst hp
          rfl
        | some q =>
          have : q.1 < rowTime row := (List.pairwise_append.1 hi).2.2 q (List.mem_of_getLast? hp)
            (rowTime row, g row) (by simp [colf])
          simp only [if_pos this]
      obtain ⟨v', h1, h2⟩ := readLoop_reads ip g stop rows
        (pre ++ [(rowTime row, g row)]) (td + 1) (rowTime row) (g row)
        (by simpa [colf] using hi)
      have hr : reads stop t (row :: rows) = row :: reads stop (rowTime row) rows := by
        simp [reads, h]
      have hl : lastRead stop t (row :: rows) = lastRead stop (rowTime row) rows := by
        unfold lastRead
        rw [hr]
        cases hc : reads stop (rowTime row) rows with
        | nil => simp
        | cons r rs => rw [List.getLast?_cons_cons]; simp [List.getLast?_eq_some_getLast]
      refine ⟨v', ?_, ?_⟩
      · simp only [Tr.readLoop, if_pos h, happ, bind, Except.bind, h1, hr, hl, colf, List.map_cons,
          List.append_assoc, List.cons_append, List.nil_append, List.length_cons]
        congr 3
        omega
      · rw [hr, hl]
        simpa using h2
    · have hr : reads stop t (row :: rows) = [] := by simp [reads, h]
      refine ⟨v, ?_, Or.inr ?_⟩
      · simp [Tr.readLoop, h, hr, colf, lastRead]
      · simpa [lastRead, hr] using not_le.1 h

section
variable {D : List (List ℚ)} {S E : ℚ}

/-- Where a leaf's signal ends: at the last row, or at the end of the horizon. -/
def leafEnd (D : List (List ℚ)) (E : ℚ) : ℚ := if E < lastRead E 0 D then E else lastRead E 0 D

/-- Where a leaf's signal begins. -/
def leafBegin (D : List (List ℚ)) (S E : ℚ) : ℚ := if S < leafEnd D E then S else leafEnd D E

/-- The sample times of a leaf. -/
def leafTimes (D : List (List ℚ)) (S E : ℚ) : List ℚ :=
  trimTimes (((reads E 0 D).map rowTime).headD 0) ((reads E 0 D).map rowTime)
    (leafBegin D S E) (leafEnd D E)

theorem leafBegin_le : leafBegin D S E ≤ leafEnd D E := by
  unfold leafBegin; split
  · rename_i h; exact h.le
  · exact le_rfl

theorem leafTrim_eq {z : Signal} {t v : ℚ} :
    Tr.leafTrim S E z t v = (let e := if E < t then E else z.endTime
      resize ⟨z.samples, z.beginTime, e⟩ (if S < e then S else e) e v) := by
  unfold Tr.leafTrim
  by_cases h : E < t
  · simp only [if_pos h]
    by_cases h1 : S < E
    · simp only [if_pos h1, max_eq_right h1.le]
    · simp only [if_neg h1]
  · simp only [if_neg h]
    by_cases h1 : S < z.endTime
    · simp only [if_pos h1, max_eq_right h1.le]
    · simp only [if_neg h1]

theorem leafTimes_grid (hD : (D.map rowTime).Pairwise (· < ·)) (hne : D ≠ []) (hE : 0 ≤ E) :
    Grid (leafTimes D S E) (leafBegin D S E) (leafEnd D E) := by
  have hp : ((reads E 0 D).map rowTime).Pairwise (· < ·) :=
    hD.sublist ((reads_prefix E 0 D).sublist.map _)
  refine trimTimes_grid hp ?_ leafBegin_le
  obtain ⟨row, rows, rfl⟩ := List.exists_cons_of_ne_nil hne
  simp [reads, hE]

/-- A leaf after a run. -/
structure LeafOk (D : List (List ℚ)) (S E : ℚ) (z : Signal) (td : Option ℕ) : Prop where
  b : z.beginTime = leafBegin D S E
  e : z.endTime = leafEnd D E
  t : times z.samples = leafTimes D S E
  td : ∃ k, td = some k ∧ (D.drop k = [] ∨ leafEnd D E = E ∧ ∀ row ∈ D.drop k, E < rowTime row)

theorem LeafOk.ne {z : Signal} {td : Option ℕ} (hD : (D.map rowTime).Pairwise (· < ·)) (hne : D ≠ [])
    (hE : 0 ≤ E) (h : LeafOk D S E z td) : z.samples ≠ [] := by
  intro h0
  have := (leafTimes_grid (S := S) hD hne hE).head
  rw [← h.t, h0] at this
  simp at this

theorem leaf_first_any (ip : Interpol) (g : List ℚ → ℚ) (hD : (D.map rowTime).Pairwise (· < ·))
    (hne : D ≠ []) (hE : 0 ≤ E) :
    ∃ z k t v, Tr.readLoop ip g E D .empty 0 0 0 = .ok (z, k, t, v) ∧
      ∀ w, ∃ z', Tr.leafTrim S E z t w = .ok z' ∧ LeafOk D S E z' (some k) := by
  have hi : Inc ([] ++ colf g D) := by
    rw [List.nil_append]
    unfold colf Inc
    rw [List.pairwise_map] at hD ⊢
    exact hD
  obtain ⟨v, h1, h2⟩ := readLoop_reads ip g E D [] 0 0 0 hi
  rw [List.nil_append, Nat.zero_add] at h1
  have hr : reads E 0 D ≠ [] := by
    obtain ⟨row, rows, rfl⟩ := List.exists_cons_of_ne_nil hne
    simp [reads, hE]
  obtain ⟨r0, rs, hr0⟩ := List.exists_cons_of_ne_nil hr
  obtain ⟨rl, hrl⟩ : ∃ rl, (reads E 0 D).getLast? = some rl := ⟨_, List.getLast?_eq_some_getLast hr⟩
  have hlast : lastRead E 0 D = rowTime rl := by simp [lastRead, hrl]
  have hz : linSig ip (colf g (reads E 0 D)) =
      ⟨lin ip (colf g (reads E 0 D)), rowTime r0, lastRead E 0 D⟩ := by
    have e1 : (colf g (reads E 0 D)).getLast? = some (rowTime rl, g rl) := by
      simp [colf, hrl]
    rw [hlast]
    unfold linSig
    rw [e1, hr0]
    rfl
  have ht : times (lin ip (colf g (reads E 0 D))) = (reads E 0 D).map rowTime := by
    rw [Tr.lin_times']
    simp [colf]
  refine ⟨_, _, _, _, h1, fun w => ?_⟩
  rw [leafTrim_eq, hz]
  have he : (if E < lastRead E 0 D then E else lastRead E 0 D) = leafEnd D E := rfl
  simp only [he]
  have hu : (if S < leafEnd D E then S else leafEnd D E) = leafBegin D S E := rfl
  rw [hu]
  obtain ⟨z', k1, k2, k3, k4, k5⟩ := resize_times (x := ⟨lin ip (colf g (reads E 0 D)),
    rowTime r0, leafEnd D E⟩) (u := leafBegin D S E) (e := leafEnd D E) w (by
      intro h0
      have h0' : lin ip (colf g (reads E 0 D)) = [] := h0
      rw [h0'] at ht
      simp [hr0] at ht) leafBegin_le le_rfl
  refine ⟨z', k1, k3, k4, ?_, _, rfl, ?_⟩
  · rw [k5]
    show trimTimes _ (times (lin ip (colf g (reads E 0 D)))) _ _ = _
    rw [ht]
    unfold leafTimes
    rw [hr0]
    rfl
  · rcases h2 with h2 | h2
    · exact Or.inl h2
    · refine Or.inr ⟨if_pos h2, fun row hrow => ?_⟩
      obtain ⟨suf, hsuf⟩ := reads_prefix E 0 D
      have hdrop : D.drop (reads E 0 D).length = suf := by
        have h9 : (reads E 0 D ++ suf).drop (reads E 0 D).length = suf := List.drop_left
        rwa [hsuf] at h9
      rw [hdrop] at hrow
      rw [← hsuf, List.map_append, List.pairwise_append] at hD
      have := hD.2.2 (rowTime rl) (List.mem_map_of_mem (List.mem_of_getLast? hrl)) (rowTime row)
        (List.mem_map_of_mem hrow)
      rw [← hlast] at this
      exact h2.trans this

theorem appendSample_later (ip : Interpol) {x : Signal} {t : ℚ} (v d : ℚ) (hx : x.samples ≠ [])
    (hle : ∀ p ∈ x.samples, p.time ≤ x.endTime) (ht : x.endTime < t) :
    ∃ z, appendSample ip x t v d = .ok z ∧ times z.samples = times x.samples ++ [t] ∧
      z.beginTime = x.beginTime ∧ z.endTime = t := by
  unfold appendSample
  rw [if_neg (fun h => absurd h.1 (not_le.2 ht))]
  cases ip with
  | PREVIOUS =>
    simp only [if_neg hx]
    exact ⟨_, rfl, by simp, rfl, rfl⟩
  | LINEAR =>
    obtain ⟨b, hb⟩ : ∃ b, x.samples.getLast? = some b := ⟨_, List.getLast?_eq_some_getLast hx⟩
    simp only [hb]
    have hlt : b.time < t := (hle b (List.mem_of_getLast? hb)).trans_lt ht
    have hq : qdiv (v - b.value) (t - b.time) = .ok ((v - b.value) / (t - b.time)) := by
      unfold qdiv; rw [if_neg (by linarith [sub_pos.2 hlt] : ¬ t - b.time = 0)]
    simp only [hq, bind, Except.bind]
    exact ⟨_, rfl, by simp only [times, List.map_append]; rw [show (setBackDerivative x.samples _).map Sample.time = _ from Tr.times_setBack _ _]; rfl, rfl, rfl⟩

theorem leaf_again_any (ip : Interpol) (g : List ℚ → ℚ) (hD : (D.map rowTime).Pairwise (· < ·))
    (hne : D ≠ []) (hE : 0 ≤ E) {z : Signal} {k : ℕ} (hz : LeafOk D S E z (some k)) :
    ∃ z1 k' t v, Tr.readLoop ip g E (D.drop k) z k 0 0 = .ok (z1, k', t, v) ∧
      ∀ w, ∃ z', Tr.leafTrim S E z1 t w = .ok z' ∧ LeafOk D S E z' (some k') := by
  have hG := leafTimes_grid (S := S) hD hne hE
  have hzne := hz.ne hD hne hE
  have hle : ∀ p ∈ z.samples, p.time ≤ leafEnd D E := fun p hp =>
    hG.le _ (by rw [← hz.t]; exact List.mem_map_of_mem hp)
  obtain ⟨k0, hk0, htd⟩ := hz.td
  obtain rfl := Option.some.inj hk0
  cases hr : D.drop k with
  | nil =>
    refine ⟨z, k, 0, 0, by simp [Tr.readLoop], fun w => ?_⟩
    rw [leafTrim_eq]
    simp only [if_neg (not_lt.2 hE), hz.e]
    have hu : (if S < leafEnd D E then S else leafEnd D E) = leafBegin D S E := rfl
    rw [hu]
    obtain ⟨z', k1, k2, k3, k4, k5⟩ := resize_times (x := ⟨z.samples, z.beginTime, leafEnd D E⟩)
      (u := leafBegin D S E) (e := leafEnd D E) w hzne leafBegin_le le_rfl
    refine ⟨z', k1, k3, k4, ?_, k, rfl, htd⟩
    rw [k5]
    show trimTimes z.beginTime (times z.samples) _ _ = _
    rw [hz.b, hz.t, trimTimes_same hG]
  | cons row rows =>
    rcases htd with htd | ⟨he, htd⟩
    · rw [hr] at htd; simp at htd
    · rw [hr] at htd
      have hrow : E < rowTime row := htd row (by simp)
      obtain ⟨z1, a1, a2, a3, a4⟩ := appendSample_later ip (t := rowTime row) (g row) 0 hzne
        (by rw [hz.e]; exact hle) (by rw [hz.e, he]; exact hrow)
      refine ⟨z1, k + 1, rowTime row, g row, ?_, fun w => ?_⟩
      · simp only [Tr.readLoop, if_pos hE, appendSample0, a1, bind, Except.bind]
        cases rows with
        | nil => rfl
        | cons r rs => simp only [Tr.readLoop, if_neg (not_le.2 hrow)]
      · rw [leafTrim_eq]
        simp only [if_pos hrow]
        have hu : (if S < E then S else E) = leafBegin D S E := by
          unfold leafBegin; rw [he]
        rw [hu]
        obtain ⟨z', k1, k2, k3, k4, k5⟩ := resize_times (x := ⟨z1.samples, z1.beginTime, E⟩)
          (u := leafBegin D S E) (e := E) w (by
            intro h0
            have h0' : z1.samples = [] := h0
            rw [h0'] at a2; simp at a2) (leafBegin_le.trans he.le) le_rfl
        refine ⟨z', k1, k3, k4.trans he.symm, ?_, k + 1, rfl, ?_⟩
        · rw [k5]
          show trimTimes z1.beginTime (times z1.samples) _ _ = _
          rw [a3, hz.b, a2, hz.t]
          have h9 := trimTimes_again hG (by rw [he]; exact hrow : leafEnd D E < rowTime row)
          exact (congrArg (trimTimes _ _ _) he.symm).trans h9
        · have hd : D.drop (k + 1) = rows := by
            rw [← List.drop_drop, hr]; rfl
          rw [hd]
          exact Or.inr ⟨he, fun r hr' => htd r (by simp [hr'])⟩

end

end STLRom
