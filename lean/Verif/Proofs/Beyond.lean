import Verif.Proofs.LowUp
import Verif.Proofs.Total

/-!
# Rows after the first one past the horizon

A leaf stops reading at the first row past its horizon, so the first run does not depend on the
rows after it.  The bounds run the atoms again and so read one row more each time, but the atoms
ignore what they read then.
-/

namespace STLRom
open Signal Spec

/-- The rows of `D` and `D'` agree up to and including one past `K`; in PREVIOUS mode, one at `K`
is enough. -/
def SamePast (ip : Interpol) (K : ℚ) (D D' : List (List ℚ)) : Prop :=
  ∃ Q r S S', D = Q ++ r :: S ∧ D' = Q ++ r :: S' ∧
    (K < rowTime r ∨ ip = .PREVIOUS ∧ K ≤ rowTime r)

theorem cell_rowTime {r : List ℚ} {t : ℚ} (h : Tr.cell r 0 = .ok t) : t = rowTime r := by
  unfold Tr.cell at h
  cases r with
  | nil => simp at h
  | cons a l => simp at h; simp [rowTime, h]

theorem sigRead_past {ip : Interpol} {i : ℕ} {stop : ℚ} {r : List ℚ} {S S' : List (List ℚ)}
    (hr : stop < rowTime r) : ∀ (Q : List (List ℚ)) (z : Signal) (td : ℕ) (t v : ℚ),
      Tr.sigRead ip i stop (Q ++ r :: S) z td t v = Tr.sigRead ip i stop (Q ++ r :: S') z td t v
  | [], z, td, t, v => by
    simp only [List.nil_append, Tr.sigRead]
    split_ifs
    · cases h : Tr.cell r 0 with
      | error e => rfl
      | ok t' =>
        rw [cell_rowTime h]
        cases h1 : Tr.cell r i with
        | error e => rfl
        | ok v' =>
          simp only [bind, Except.bind]
          cases h2 : z.appendSample0 ip (rowTime r) v' with
          | error e => rfl
          | ok z' => cases S <;> cases S' <;> simp [Tr.sigRead, not_le.2 hr]
    · rfl
  | q :: Q, z, td, t, v => by
    simp only [List.cons_append, Tr.sigRead]
    split_ifs
    · simp only [fun z td t v => sigRead_past (i := i) (ip := ip) (S := S) (S' := S') hr Q z td t v]
    · rfl

theorem constRead_past {ip : Interpol} {c stop : ℚ} {r : List ℚ} {S S' : List (List ℚ)}
    (hr : stop < rowTime r) : ∀ (Q : List (List ℚ)) (z : Signal) (td : ℕ) (t : ℚ),
      Tr.constRead ip c stop (Q ++ r :: S) z td t = Tr.constRead ip c stop (Q ++ r :: S') z td t
  | [], z, td, t => by
    simp only [List.nil_append, Tr.constRead]
    split_ifs
    · cases h : Tr.cell r 0 with
      | error e => rfl
      | ok t' =>
        rw [cell_rowTime h]
        simp only [bind, Except.bind]
        cases h2 : z.appendSample0 ip (rowTime r) c with
        | error e => rfl
        | ok z' => cases S <;> cases S' <;> simp [Tr.constRead, not_le.2 hr]
    · rfl
  | q :: Q, z, td, t => by
    simp only [List.cons_append, Tr.constRead]
    split_ifs
    · simp only [fun z td t => constRead_past (c := c) (ip := ip) (S := S) (S' := S') hr Q z td t]
    · rfl

theorem trimFront_last {s : ℚ} {c : Sample} {X : List Sample} (hc : s ≤ c.time) :
    ∀ (L : List Sample) (f : Sample), ∃ f' q N L', trimFront s f (L ++ [c]) = (f', q :: N) ∧
      trimFront s f (L ++ c :: X) = (f', q :: N ++ X) ∧ q :: N = L' ++ [c]
  | [], f => ⟨f, c, [], [], by simp [trimFront, not_lt.2 hc], by simp [trimFront, not_lt.2 hc], rfl⟩
  | p :: L, f => by
    by_cases h : p.time < s
    · obtain ⟨f', q, N, L', a1, a2, a3⟩ := trimFront_last (X := X) hc L p
      exact ⟨f', q, N, L', by simp [trimFront, h, a1], by simp [trimFront, h, a2], a3⟩
    · exact ⟨f, p, L ++ [c], p :: L, by simp [trimFront, h], by simp [trimFront, h], rfl⟩

/-- Samples after the end do not matter to `resize`. -/
theorem resize_dropEnd {L X : List Sample} {c : Sample} {b s v : ℚ} (hs : s ≤ c.time)
    (hX : ∀ x ∈ X, c.time < x.time) :
    resize ⟨L ++ c :: X, b, c.time⟩ s c.time v = resize ⟨L ++ [c], b, c.time⟩ s c.time 0 := by
  have hb : ∀ A : List Sample, trimBack c.time (A ++ c :: X) = A ++ [c] := by
    intro A
    have h1 : List.dropWhile (fun p : Sample => decide (c.time < p.time)) X.reverse = [] := by
      have : ∀ l : List Sample, (∀ x ∈ l, c.time < x.time) →
          List.dropWhile (fun p : Sample => decide (c.time < p.time)) l = [] := by
        intro l
        induction l with
        | nil => simp
        | cons a l ih => intro h; simp [h a (by simp), ih fun x hx => h x (by simp [hx])]
      exact this _ fun x hx => hX x (by simpa using hx)
    unfold trimBack
    rw [show (A ++ c :: X).reverse = X.reverse ++ (c :: A.reverse) by simp]
    rw [List.dropWhile_append, h1]
    simp
  have hb0 : ∀ A : List Sample, trimBack c.time (A ++ [c]) = A ++ [c] := by
    intro A
    simp [trimBack]
  have key : ∀ A, resizeBack ⟨A ++ c :: X, b, c.time⟩ s c.time v =
      resizeBack ⟨A ++ [c], b, c.time⟩ s c.time 0 := by
    intro A
    simp [resizeBack, hb, hb0, ok_bind]
  have h0 : ¬ c.time < s - tol := by
    have : (0 : ℚ) < tol := by unfold tol; norm_num
    linarith
  unfold resize
  rw [if_neg h0, if_neg h0, if_neg (not_lt.2 hs)]
  unfold resizeFront
  by_cases h1 : s < b
  · rw [if_pos h1, if_pos h1]
    cases L with
    | nil => exact key [⟨s, c.value, 0⟩]
    | cons p L => exact key (⟨s, p.value, 0⟩ :: p :: L)
  · rw [if_neg h1, if_neg h1]
    obtain ⟨f', q, N, L', a1, a2, a3⟩ := trimFront_last (X := X) hs L Sample.zero
    simp only [a1, a2, List.cons_append]
    by_cases h2 : s < q.time
    · rw [if_pos h2, if_pos h2]
      simp only [ok_bind]
      have := key (⟨s, f'.valueAt s, f'.derivative⟩ :: L')
      rw [← List.cons_append, a3]
      simpa using this
    · rw [if_neg h2, if_neg h2]
      simp only [ok_bind]
      rw [← List.cons_append, a3]
      simpa using key L'

/-- The sample read from a row. -/
def rowSample (g : List ℚ → ℚ) (r : List ℚ) : Sample := ⟨rowTime r, g r, 0⟩

theorem readPrev {g : List ℚ → ℚ} {stop : ℚ} {r : List ℚ} : ∀ (Q S : List (List ℚ)) (z : Signal)
    (td : ℕ) (t v : ℚ), z.samples ≠ [] → z.endTime = t → t ≤ stop →
      (∀ q ∈ Q, rowTime q ≤ stop) → (∀ q ∈ Q ++ [r], t < rowTime q) →
      ((Q ++ [r]).map rowTime).Pairwise (· < ·) →
      Tr.readLoop .PREVIOUS g stop (Q ++ r :: S) z td t v =
        Tr.readLoop .PREVIOUS g stop S ⟨z.samples ++ (Q ++ [r]).map (rowSample g), z.beginTime, rowTime r⟩
          (td + Q.length + 1) (rowTime r) (g r)
  | [], S, z, td, t, v, h1, h2, h3, h4, h5, h6 => by
    have ha : z.appendSample0 .PREVIOUS (rowTime r) (g r) =
        .ok ⟨z.samples ++ [rowSample g r], z.beginTime, rowTime r⟩ := by
      have : ¬ rowTime r ≤ z.endTime := by
        rw [h2]; exact not_le.2 (h5 r (by simp))
      simp [appendSample0, appendSample, this, h1, rowSample]
    simp [Tr.readLoop, h3, ha, ok_bind]
  | q :: Q, S, z, td, t, v, h1, h2, h3, h4, h5, h6 => by
    have ha : z.appendSample0 .PREVIOUS (rowTime q) (g q) =
        .ok ⟨z.samples ++ [rowSample g q], z.beginTime, rowTime q⟩ := by
      have : ¬ rowTime q ≤ z.endTime := by
        rw [h2]; exact not_le.2 (h5 q (by simp))
      simp [appendSample0, appendSample, this, h1, rowSample]
    have h6' := List.pairwise_cons.1 (show (rowTime q :: (Q ++ [r]).map rowTime).Pairwise (· < ·) from h6)
    have ih := readPrev (g := g) Q S ⟨z.samples ++ [rowSample g q], z.beginTime, rowTime q⟩ (td + 1) (rowTime q) (g q)
      (by simp) rfl (h4 q (by simp)) (fun x hx => h4 x (by simp [hx]))
      (fun x hx => h6'.1 _ (List.mem_map_of_mem hx)) h6'.2
    simp only [List.cons_append, Tr.readLoop, h3, if_true, ha, ok_bind]
    rw [ih]
    simp [add_comm, add_left_comm]

/-- In PREVIOUS mode, what a leaf keeps does not depend on the rows after one at its horizon. -/
theorem leaf_prev {g : List ℚ → ℚ} {start stop : ℚ} {Q : List (List ℚ)} {r : List ℚ}
    (h0 : 0 ≤ stop) (hr : rowTime r = stop) : ∃ z : Signal, ∀ S : List (List ℚ),
      ((Q ++ r :: S).map rowTime).Pairwise (· < ·) →
      ∃ zS k t' v', Tr.readLoop .PREVIOUS g stop (Q ++ r :: S) .empty 0 0 0 = .ok (zS, k, t', v') ∧
        ∀ w, Tr.leafTrim start stop zS t' w = Tr.leafTrim start stop z stop 0 := by
  obtain ⟨b, hb⟩ : ∃ b : ℚ, ∀ S : List (List ℚ), ((Q ++ r :: S).map rowTime).Pairwise (· < ·) →
      ∃ k, Tr.readLoop .PREVIOUS g stop (Q ++ r :: S) .empty 0 0 0 =
        Tr.readLoop .PREVIOUS g stop S ⟨(Q ++ [r]).map (rowSample g), b, stop⟩ k stop (g r) := by
    cases Q with
    | nil =>
      refine ⟨stop, fun S _ => ⟨1, ?_⟩⟩
      simp [Tr.readLoop, h0, appendSample0, appendSample, Signal.empty, ok_bind, hr, rowSample]
    | cons q Q =>
      refine ⟨rowTime q, fun S hp => ⟨0 + 1 + Q.length + 1, ?_⟩⟩
      have hp' := List.pairwise_cons.1 (show (rowTime q :: (Q ++ r :: S).map rowTime).Pairwise (· < ·) from hp)
      have hq : ∀ x ∈ q :: Q, rowTime x ≤ stop := by
        intro x hx
        rw [← hr]
        rw [List.map_append] at hp
        exact ((List.pairwise_append.1 hp).2.2 _ (List.mem_map_of_mem hx) _ (by simp)).le
      have hp2 : ((Q ++ [r]).map rowTime).Pairwise (· < ·) := by
        have := hp'.2
        rw [show Q ++ r :: S = (Q ++ [r]) ++ S by simp, List.map_append] at this
        exact (List.pairwise_append.1 this).1
      have := readPrev (g := g) (r := r) Q S ⟨[rowSample g q], rowTime q, rowTime q⟩ (0 + 1) (rowTime q)
        (g q) (by simp) rfl (hq q (by simp)) (fun x hx => hq x (by simp [hx]))
        (fun x hx => hp'.1 _ (by
          rcases List.mem_append.1 hx with hx | hx
          · exact List.mem_map_of_mem (List.mem_append_left _ hx)
          · rw [List.mem_singleton.1 hx]; simp)) hp2
      have ha : Signal.empty.appendSample0 .PREVIOUS (rowTime q) (g q) =
          .ok ⟨[rowSample g q], rowTime q, rowTime q⟩ := by
        simp [appendSample0, appendSample, Signal.empty, rowSample]
      simp only [List.cons_append, Tr.readLoop, h0, if_true, ha, ok_bind]
      rw [this, hr]
      rfl
  refine ⟨⟨(Q ++ [r]).map (rowSample g), b, stop⟩, fun S hp => ?_⟩
  obtain ⟨k, hk⟩ := hb S hp
  rw [hk]
  have trim : ∀ X, (∀ x ∈ X, stop < x.time) → ∀ v,
      (if start < stop then resize ⟨(Q ++ [r]).map (rowSample g) ++ X, b, stop⟩ start (max start stop) v
        else resize ⟨(Q ++ [r]).map (rowSample g) ++ X, b, stop⟩ stop stop v) =
      if start < stop then resize ⟨(Q ++ [r]).map (rowSample g), b, stop⟩ start (max start stop) 0
        else resize ⟨(Q ++ [r]).map (rowSample g), b, stop⟩ stop stop 0 := by
    intro X hX v
    have hc : (rowSample g r).time = stop := hr
    have e : ∀ s ≤ stop, resize ⟨(Q ++ [r]).map (rowSample g) ++ X, b, stop⟩ s stop v =
        resize ⟨(Q ++ [r]).map (rowSample g), b, stop⟩ s stop 0 := by
      intro s hs
      have := resize_dropEnd (L := Q.map (rowSample g)) (X := X) (c := rowSample g r) (b := b) (s := s) (v := v)
        (hc ▸ hs) (hc ▸ hX)
      rw [hc] at this
      simpa using this
    by_cases h : start < stop
    · simp only [if_pos h, max_eq_right h.le]
      exact e start h.le
    · simp only [if_neg h]
      exact e stop le_rfl
  cases S with
  | nil =>
    refine ⟨_, _, _, _, rfl, fun w => ?_⟩
    have := trim [] (by simp) w
    simpa [Tr.leafTrim] using this
  | cons w S =>
    have hw : stop < rowTime w := by
      rw [List.map_append] at hp
      have := (List.pairwise_append.1 hp).2.1
      simp only [List.map_cons] at this
      rw [← hr]
      exact (List.pairwise_cons.1 this).1 _ (by simp)
    have ha : appendSample0 .PREVIOUS ⟨(Q ++ [r]).map (rowSample g), b, stop⟩ (rowTime w) (g w) =
        .ok ⟨(Q ++ [r]).map (rowSample g) ++ [rowSample g w], b, rowTime w⟩ := by
      simp [appendSample0, appendSample, not_le.2 hw, rowSample]
    refine ⟨⟨(Q ++ [r]).map (rowSample g) ++ [rowSample g w], b, rowTime w⟩, k + 1, rowTime w, g w, ?_, fun v => ?_⟩
    · simp only [Tr.readLoop, le_refl, if_true, ha, ok_bind]
      cases S with
      | nil => rfl
      | cons w' S => simp only [Tr.readLoop, if_neg (not_le.2 hw)]
    · have := trim [rowSample g w] (by simpa [rowSample] using hw) v
      simp only [Tr.leafTrim, if_pos hw, lt_irrefl, if_false]
      exact this
variable {env : Env} {n : ℕ}

/-- The tree without the positions of the leaves in the trace. -/
def bare : Tr → Tr
  | .sig s v m _ => .sig s v m none
  | .const s p v _ => .const s p v none
  | .abs s c => .abs s (bare c)
  | .plus s l r => .plus s (bare l) (bare r)
  | .minus s l r => .minus s (bare l) (bare r)
  | .mult s l r => .mult s (bare l) (bare r)
  | .atom s k l r => .atom s k (bare l) (bare r)
  | .not s c => .not s (bare c)
  | .and s l r => .and s (bare l) (bare r)
  | .or s l r => .or s (bare l) (bare r)
  | .implies s l r => .implies s (bare l) (bare r)
  | .ev s I c => .ev s I (bare c)
  | .alw s I c => .alw s I (bare c)
  | .untl s l I r => .untl s (bare l) I (bare r)

theorem bare_st (T : Tr) : (bare T).st = T.st := by cases T <;> rfl

theorem bare_setZ (T : Tr) (z : Signal) : bare (T.setZ z) = (bare T).setZ z := by cases T <;> rfl

/-- A result, without the positions of the leaves. -/
def bareR (x : Tr × ℚ) : Tr × ℚ := (bare x.1, x.2)

theorem bare_cases {x y : M (Tr × ℚ)} (h : x.map bareR = y.map bareR) :
    (∃ e, x = .error e ∧ y = .error e) ∨
      ∃ T T' v, x = .ok (T, v) ∧ y = .ok (T', v) ∧ bare T = bare T' ∧ T.st = T'.st := by
  rcases map_cases h with h | ⟨⟨T, v⟩, ⟨T', v'⟩, h1, h2, h3⟩
  · exact Or.inl h
  · simp only [bareR, Prod.mk.injEq] at h3
    obtain ⟨h3, rfl⟩ := h3
    exact Or.inr ⟨T, T', v, h1, h2, h3, by rw [← bare_st T, h3, bare_st]⟩

theorem leafSig_past {D' : List (List ℚ)} {s : St} {v : String} {m : Assoc ℕ} (hz : s.z = .empty)
    (hD : WellShaped n env.data) (hD' : WellShaped n D') (hs : SamePast env.ip s.stop env.data D') :
    (Tr.sigRob { env with data := D' } s v m (some 0)).map (fun x => (x.1, x.2.2)) =
      (Tr.sigRob env s v m (some 0)).map (fun x => (x.1, x.2.2)) := by
  obtain ⟨Q, r, S1, S2, e1, e2, hr⟩ := hs
  have hlt : s.stop < rowTime r → Tr.sigRob { env with data := D' } s v m (some 0) =
      Tr.sigRob env s v m (some 0) := by
    intro hr
    unfold Tr.sigRob
    split
    · rfl
    · simp only [e1, e2, List.drop_zero]
      rw [sigRead_past (S := S2) (S' := S1) hr]
      simp
  rcases hr with hr | ⟨hip, hr⟩
  · rw [hlt hr]
  rcases hr.lt_or_eq with hr | hr
  · rw [hlt hr]
  unfold Tr.sigRob
  split
  · rfl
  · rename_i i hi
    simp only [hz, hip, List.drop_zero]
    have n1 : env.data ≠ [] := by rw [e1]; simp
    have n2 : D' ≠ [] := by rw [e2]; simp
    rw [if_neg (fun h => n2 h.1), if_neg (fun h => n1 h.1)]
    by_cases h0 : 0 ≤ s.stop
    · by_cases hn : i + 1 ≤ n
      · rw [Tr.sigRead_eq _ _ n _ hn _ _ _ _ _ hD.1, Tr.sigRead_eq _ _ n _ hn _ _ _ _ _ hD'.1]
        obtain ⟨z, hz'⟩ := leaf_prev (g := fun r => r.getD (i + 1) 0) (start := s.start) (Q := Q) h0 hr.symm
        obtain ⟨z1, k1, t1, v1, a1, a2⟩ := hz' S1 (by rw [← e1]; exact hD.inc)
        obtain ⟨z2, k2, t2, v2, b1, b2⟩ := hz' S2 (by rw [← e2]; exact hD'.inc)
        simp only [e1, e2, a1, b1, ok_bind, a2, b2]
        cases Tr.leafTrim s.start s.stop z s.stop 0 with
        | error => rfl
        | ok w => simp only [ok_bind]; cases w.front <;> rfl
      · have key : ∀ D : List (List ℚ), D ≠ [] → (∀ row ∈ D, row.length = n + 1) →
            Tr.sigRead .PREVIOUS (i + 1) s.stop D .empty 0 0 0 = .error .ub := by
          intro D hne hl
          obtain ⟨row, rows, rfl⟩ := List.exists_cons_of_ne_nil hne
          have hl := hl row (by simp)
          have c1 : Tr.cell row 0 = .ok (row.getD 0 0) := Tr.cell_getD hl (Nat.zero_le _)
          have c2 : Tr.cell row (i + 1) = .error .ub := by
            have : ¬ i + 1 < row.length := by omega
            simp [Tr.cell, this]
          simp only [Tr.sigRead, if_pos h0, c1, c2, ok_bind, error_bind]
        rw [key _ n1 hD.1, key _ n2 hD'.1]
    · obtain ⟨row, rows, h1⟩ := List.exists_cons_of_ne_nil n1
      obtain ⟨row', rows', h2⟩ := List.exists_cons_of_ne_nil n2
      rw [h1, h2]
      simp only [Tr.sigRead, if_neg h0]

theorem leafConst_past {D' : List (List ℚ)} {s : St} {c : ℚ} (hz : s.z = .empty)
    (hD : WellShaped n env.data) (hD' : WellShaped n D') (hs : SamePast env.ip s.stop env.data D') :
    (Tr.constRob { env with data := D' } s c (some 0)).map (fun x => x.1) =
      (Tr.constRob env s c (some 0)).map (fun x => x.1) := by
  obtain ⟨Q, r, S1, S2, e1, e2, hr⟩ := hs
  have hlt : s.stop < rowTime r → Tr.constRob { env with data := D' } s c (some 0) =
      Tr.constRob env s c (some 0) := by
    intro hr
    unfold Tr.constRob
    simp only [e1, e2, List.drop_zero]
    rw [constRead_past (S := S2) (S' := S1) hr]
    simp
  rcases hr with hr | ⟨hip, hr⟩
  · rw [hlt hr]
  rcases hr.lt_or_eq with hr | hr
  · rw [hlt hr]
  unfold Tr.constRob
  simp only [hz, hip, List.drop_zero]
  have n1 : env.data ≠ [] := by rw [e1]; simp
  have n2 : D' ≠ [] := by rw [e2]; simp
  rw [if_neg (fun h => n2 h.1), if_neg (fun h => n1 h.1)]
  by_cases h0 : 0 ≤ s.stop
  · rw [Tr.constRead_eq _ n _ _ _ _ _ _ 0 hD.1, Tr.constRead_eq _ n _ _ _ _ _ _ 0 hD'.1]
    obtain ⟨z, hz'⟩ := leaf_prev (g := fun _ => c) (start := s.start) (Q := Q) h0 hr.symm
    obtain ⟨z1, k1, t1, v1, a1, a2⟩ := hz' S1 (by rw [← e1]; exact hD.inc)
    obtain ⟨z2, k2, t2, v2, b1, b2⟩ := hz' S2 (by rw [← e2]; exact hD'.inc)
    simp only [e1, e2, a1, b1, Except.map, ok_bind, a2, b2]
    cases Tr.leafTrim s.start s.stop z s.stop 0 <;> rfl
  · obtain ⟨row, rows, h1⟩ := List.exists_cons_of_ne_nil n1
    obtain ⟨row', rows', h2⟩ := List.exists_cons_of_ne_nil n2
    rw [h1, h2]
    simp only [Tr.constRead, if_neg h0]

/-- The first run of a term. -/
theorem term_past {P : Assoc ℚ} {S E : ℚ} {D' : List (List ℚ)} (hD : WellShaped n env.data)
    (hD' : WellShaped n D') (hs : SamePast env.ip E env.data D') :
    ∀ {T : Tr}, IsTerm T → Fresh P S E T →
      (Tr.computeRob { env with data := D' } T).map bareR = (Tr.computeRob env T).map bareR := by
  intro T
  induction T with
  | sig s v m td =>
    intro _ hf
    obtain ⟨⟨f1, f2, f3, _⟩, rfl⟩ := hf
    have h := leafSig_past (v := v) (m := m) f3 hD hD' (by rw [f2]; exact hs)
    rcases map_cases h with ⟨e, h1, h2⟩ | ⟨⟨z, k, x⟩, ⟨z', k', x'⟩, h1, h2, h3⟩
    · simp only [Tr.computeRob, h1, h2, error_bind]
    · simp only [Prod.mk.injEq] at h3
      obtain ⟨rfl, rfl⟩ := h3
      simp only [Tr.computeRob, h1, h2, ok_bind]
      rfl
  | const s p v td =>
    intro _ hf
    obtain ⟨⟨f1, f2, f3, _⟩, rfl⟩ := hf
    have h := leafConst_past (c := Tr.constValue env.params p v) f3 hD hD' (by rw [f2]; exact hs)
    rcases map_cases h with ⟨e, h1, h2⟩ | ⟨⟨z, k⟩, ⟨z', k'⟩, h1, h2, h3⟩
    · simp only [Tr.computeRob, h1, h2, error_bind]
    · obtain rfl : z = z' := h3
      simp only [Tr.computeRob, h1, h2, ok_bind]
      rfl
  | abs s c ih =>
    intro ht hf
    rcases bare_cases (ih ht hf.2) with ⟨e, h1, h2⟩ | ⟨c1, c2, x, h1, h2, h3, h4⟩
    · simp only [Tr.computeRob, h1, h2, error_bind]
    · simp only [Tr.computeRob, h1, h2, ok_bind, h4]
      refine map_bind_congr _ fun z => map_bind_congr _ fun p => ?_
      simp [Except.map, bareR, bare, h3]
  | plus s l r ih1 ih2 | minus s l r ih1 ih2 | mult s l r ih1 ih2 =>
    intro ht hf
    rcases bare_cases (ih1 ht.1 hf.2.1) with ⟨e, h1, h2⟩ | ⟨c1, c2, x, h1, h2, h3, h4⟩
    · simp only [Tr.computeRob, h1, h2, error_bind]
    rcases bare_cases (ih2 ht.2 hf.2.2) with ⟨e, k1, k2⟩ | ⟨d1, d2, y, k1, k2, k3, k4⟩
    · simp only [Tr.computeRob, h1, h2, k1, k2, ok_bind, error_bind]
    · simp only [Tr.computeRob, h1, h2, k1, k2, ok_bind, h4, k4]
      refine map_bind_congr _ fun z => map_bind_congr _ fun p => ?_
      simp [Except.map, bareR, bare, h3, k3]
  | _ => intro ht; exact ht.elim

theorem SamePast.mono {ip : Interpol} {K K' : ℚ} {D D' : List (List ℚ)} (h : SamePast ip K D D')
    (hk : K' ≤ K) : SamePast ip K' D D' := by
  obtain ⟨Q, r, S1, S2, e1, e2, hr⟩ := h
  exact ⟨Q, r, S1, S2, e1, e2, hr.imp hk.trans_lt fun h => ⟨h.1, hk.trans h.2⟩⟩

/-- The first run of a formula. -/
theorem rob_past {P : Assoc ℚ} {D' : List (List ℚ)} (hD : WellShaped n env.data)
    (hD' : WellShaped n D') (T : Tr) : ∀ {S E : ℚ}, IsStl T → Fresh P S E T →
    SamePast env.ip (E + reach P T) env.data D' →
      (Tr.computeRob { env with data := D' } T).map bareR = (Tr.computeRob env T).map bareR := by
  induction T with
  | atom s k l r =>
    intro S E ht hf hs
    have hs : SamePast env.ip E env.data D' := hs.mono (by simp [reach])
    rcases bare_cases (term_past hD hD' hs ht.1 hf.2.1) with ⟨e, h1, h2⟩ | ⟨c1, c2, x, h1, h2, h3, h4⟩
    · simp only [Tr.computeRob, h1, h2, error_bind]
    rcases bare_cases (term_past hD hD' hs ht.2 hf.2.2) with ⟨e, k1, k2⟩ | ⟨d1, d2, y, k1, k2, k3, k4⟩
    · simp only [Tr.computeRob, h1, h2, k1, k2, ok_bind, error_bind]
    · simp only [Tr.computeRob, h1, h2, k1, k2, ok_bind, h4, k4]
      have : Tr.atomRob { env with data := D' } k s.z c2.st.z d2.st.z =
        Tr.atomRob env k s.z c2.st.z d2.st.z := rfl
      rw [this]
      refine map_bind_congr _ fun z => map_bind_congr _ fun p => ?_
      simp [Except.map, bareR, bare, h3, k3]
  | not s c ih =>
    intro S E ht hf hs
    rcases bare_cases (ih ht hf.2 hs) with ⟨e, h1, h2⟩ | ⟨c1, c2, x, h1, h2, h3, h4⟩
    · simp only [Tr.computeRob, h1, h2, error_bind]
    · simp only [Tr.computeRob, h1, h2, ok_bind, h4]
      refine map_bind_congr _ fun p => ?_
      simp [Except.map, bareR, bare, h3]
  | and s l r ih1 ih2 | or s l r ih1 ih2 | implies s l r ih1 ih2 =>
    intro S E ht hf hs
    rcases bare_cases (ih1 ht.1 hf.2.1 (hs.mono (by simp [reach]))) with
      ⟨e, h1, h2⟩ | ⟨c1, c2, x, h1, h2, h3, h4⟩
    · simp only [Tr.computeRob, h1, h2, error_bind]
    rcases bare_cases (ih2 ht.2 hf.2.2 (hs.mono (by simp [reach]))) with
      ⟨e, k1, k2⟩ | ⟨d1, d2, y, k1, k2, k3, k4⟩
    · simp only [Tr.computeRob, h1, h2, k1, k2, ok_bind, error_bind]
    · simp only [Tr.computeRob, h1, h2, k1, k2, ok_bind, h4, k4]
      refine map_bind_congr _ fun z => map_bind_congr _ fun p => ?_
      simp [Except.map, bareR, bare, h3, k3]
  | ev s I c ih =>
    intro S E ht hf hs
    rcases bare_cases (ih ht hf.2 (hs.mono (by simp [reach, add_assoc]))) with
      ⟨e, h1, h2⟩ | ⟨c1, c2, x, h1, h2, h3, h4⟩
    · simp only [Tr.computeRob, h1, h2, error_bind]
    · simp only [Tr.computeRob, h1, h2, ok_bind, h4]
      refine map_bind_congr _ fun z => map_bind_congr _ fun p => ?_
      simp [Except.map, bareR, bare, bare_setZ, h3]
  | alw s I c ih =>
    intro S E ht hf hs
    rcases bare_cases (ih ht hf.2 (hs.mono (by simp [reach, add_assoc]))) with
      ⟨e, h1, h2⟩ | ⟨c1, c2, x, h1, h2, h3, h4⟩
    · simp only [Tr.computeRob, h1, h2, error_bind]
    · simp only [Tr.computeRob, h1, h2, ok_bind, h4]
      refine map_bind_congr _ fun z => map_bind_congr _ fun p => ?_
      simp [Except.map, bareR, bare, h3]
  | untl s l I r ih1 ih2 =>
    intro S E ht hf hs
    rcases bare_cases (ih1 ht.1 hf.2.1 (hs.mono (by simp [reach, add_assoc]))) with
      ⟨e, h1, h2⟩ | ⟨c1, c2, x, h1, h2, h3, h4⟩
    · simp only [Tr.computeRob, h1, h2, error_bind]
    rcases bare_cases (ih2 ht.2 hf.2.2 (hs.mono (by simp [reach, add_assoc]))) with
      ⟨e, k1, k2⟩ | ⟨d1, d2, y, k1, k2, k3, k4⟩
    · simp only [Tr.computeRob, h1, h2, k1, k2, ok_bind, error_bind]
    · simp only [Tr.computeRob, h1, h2, k1, k2, ok_bind, h4, k4]
      refine map_bind_congr _ fun z => map_bind_congr _ fun p => ?_
      simp [Except.map, bareR, bare, h3, k3]
  | _ => intro S E ht; exact ht.elim

/-- The intervals of `ev` are those of a formula. -/
def Forward (P : Assoc ℚ) : Tr → Prop
  | .not _ c | .alw _ _ c => Forward P c
  | .ev _ I c => 0 ≤ bound P I.beginStr I.begin ∧ 0 ≤ bound P I.stopStr I.stop ∧ Forward P c
  | .and _ l r | .or _ l r | .implies _ l r | .untl _ l _ r => Forward P l ∧ Forward P r
  | _ => True

/-- The signals of the atoms are there, up to the end of those of their expressions. -/
def Reached : Tr → Prop
  | .atom s _ l _ => s.z.samples ≠ [] ∧ ∀ p ∈ l.st.z.samples, p.time ≤ s.z.endTime
  | .not _ c | .ev _ _ c | .alw _ _ c => Reached c
  | .and _ l r | .or _ l r | .implies _ l r | .untl _ l _ r => Reached l ∧ Reached r
  | _ => True

theorem reached_setZ {T : Tr} (z : Signal) (h : Reached T)
    (ha : ∀ s k l r, T = .atom s k l r → z.samples ≠ [] ∧ z.endTime = s.z.endTime) :
    Reached (T.setZ z) := by
  cases T with
  | atom s k l r =>
    obtain ⟨a1, a2⟩ := ha s k l r rfl
    exact ⟨a1, fun p hp => (h.2 p hp).trans a2.ge⟩
  | _ => exact h

theorem rob_reached (hD : WellShaped n env.data) {P : Assoc ℚ} (hP : env.params = P) (T : Tr) :
    ∀ {S E : ℚ} {T' : Tr} {x : ℚ}, IsStl T → Forward P T → Fresh P S E T →
      Tr.computeRob env T = .ok (T', x) → Reached T' := by
  induction T with
  | atom s k l r =>
    intro S E T' x ht _ hf h
    simp only [Tr.computeRob] at h
    obtain ⟨⟨l', y⟩, h1, h⟩ := bind_eq_ok.1 h
    obtain ⟨⟨r', y'⟩, h2, h⟩ := bind_eq_ok.1 h
    obtain ⟨z, h3, h⟩ := bind_eq_ok.1 h
    obtain ⟨p, h4, h⟩ := bind_eq_ok.1 h
    simp only [Except.ok.injEq, Prod.mk.injEq] at h
    obtain ⟨rfl, rfl⟩ := h
    have hl' := term_run hD ht.1 hf.2.1 h1
    rw [hf.1.2.2.1] at h3
    obtain ⟨a1, a2, _⟩ := atomRob_run (z := .empty)
      ⟨Or.inl rfl, Or.inl (by simp [Within, Signal.empty])⟩ hl'.le h3 h4
    exact ⟨a1.ne, fun p hp => (hl'.le p hp).trans a2.ge⟩
  | not s c ih =>
    intro S E T' x ht hw hf h
    simp only [Tr.computeRob] at h
    obtain ⟨⟨c', y⟩, h1, h⟩ := bind_eq_ok.1 h
    obtain ⟨p, h4, h⟩ := bind_eq_ok.1 h
    simp only [Except.ok.injEq, Prod.mk.injEq] at h
    obtain ⟨rfl, rfl⟩ := h
    exact ih (T' := c') ht hw hf.2 h1
  | and s l r ih1 ih2 | or s l r ih1 ih2 | implies s l r ih1 ih2 | untl s l I r ih1 ih2 =>
    intro S E T' x ht hw hf h
    simp only [Tr.computeRob] at h
    obtain ⟨⟨l', y⟩, h1, h⟩ := bind_eq_ok.1 h
    obtain ⟨⟨r', y'⟩, h2, h⟩ := bind_eq_ok.1 h
    obtain ⟨z, h3, h⟩ := bind_eq_ok.1 h
    obtain ⟨p, h4, h⟩ := bind_eq_ok.1 h
    simp only [Except.ok.injEq, Prod.mk.injEq] at h
    obtain ⟨rfl, rfl⟩ := h
    exact ⟨ih1 ht.1 hw.1 hf.2.1 h1, ih2 ht.2 hw.2 hf.2.2 h2⟩
  | ev s I c ih =>
    intro S E T' x ht hw hf h
    have hset : ∀ {T' x}, _ := fun {T' x} => rob_settles hD c (T' := T') (x := x) ht hf.2
    simp only [Tr.computeRob] at h
    obtain ⟨⟨c', y⟩, h1, h⟩ := bind_eq_ok.1 h
    obtain ⟨⟨z, zc⟩, h3, h⟩ := bind_eq_ok.1 h
    obtain ⟨p, h4, h⟩ := bind_eq_ok.1 h
    simp only [Except.ok.injEq, Prod.mk.injEq] at h
    obtain ⟨rfl, rfl⟩ := h
    refine reached_setZ _ (ih ht hw.2.2 hf.2 h1) fun s' k l r hc => ?_
    obtain ⟨_, _, _, _, i5⟩ := hset h1
    obtain ⟨b1, b2⟩ := i5 s' k l r hc
    unfold Tr.evRob at h3
    obtain ⟨z1, h6, h3⟩ := bind_eq_ok.1 h3
    obtain ⟨z2, h5, h3⟩ := bind_eq_ok.1 h3
    obtain ⟨z3, _, h3⟩ := bind_eq_ok.1 h3
    simp only [Except.ok.injEq, Prod.mk.injEq] at h3
    obtain ⟨rfl, rfl⟩ := h3
    rw [hc] at h5 h6
    have hd : Hd s'.z := by
      obtain ⟨q, m, hq⟩ := List.exists_cons_of_ne_nil b1.ne
      exact ⟨q, m, hq, b1.head q (by rw [hq]; rfl)⟩
    have ha : 0 ≤ Tr.ivA env.params I := by rw [ivA_eq, hP]; exact hw.1
    have hb : 0 ≤ Tr.ivB env.params I := by rw [ivB_eq, hP]; exact hw.2.1
    obtain ⟨z1', g1, _, _, g4⟩ := computeTimedEventually_total env.B s.z (b := Tr.ivB env.params I) hd ha
    change computeTimedEventually env.B s.z s'.z _ _ = _ at h6
    rw [g1] at h6
    obtain rfl := Except.ok.inj h6
    change resize s'.z _ s'.z.endTime 0 = _ at h5
    have hle : min z1'.endTime s.stop - Tr.ivB env.params I ≤ s'.z.endTime := by
      have := min_le_left z1'.endTime s.stop
      linarith
    obtain ⟨z, a1, a2, _, a4, _⟩ := resize_end (v := 0) b1 hle
    rw [a1] at h5
    obtain rfl := Except.ok.inj h5
    exact ⟨a2.ne, a4⟩
  | alw s I c ih =>
    intro S E T' x ht hw hf h
    simp only [Tr.computeRob] at h
    obtain ⟨⟨c', y⟩, h1, h⟩ := bind_eq_ok.1 h
    obtain ⟨z, h3, h⟩ := bind_eq_ok.1 h
    obtain ⟨p, h4, h⟩ := bind_eq_ok.1 h
    simp only [Except.ok.injEq, Prod.mk.injEq] at h
    obtain ⟨rfl, rfl⟩ := h
    exact ih (T' := c') ht hw hf.2 h1
  | _ => intro S E T' x ht; exact ht.elim

/-- What a further run of an atom computes from its signal and the end time of its expression. -/
def atomAgain (env : Env) (z : Signal) (e : ℚ) : M Signal := do
  let z ← (match env.sem with
    | .SPACE => .ok { z with endTime := e }
    | .LEFT_TIME => Signal.computeLeftTimeRob { z with endTime := e }
    | .RIGHT_TIME => Signal.computeRightTimeRob { z with endTime := e }
    | .BOOLEAN => .error (.exn "Invalid semantics value") : M Signal)
  let _ ← z.front
  .ok z

theorem atom_once_more (hD : WellShaped n env.data) {s : St} {k : Cmp} {l r : Tr}
    (hl : EInv n env.data l) (hr : EInv n env.data r) (hz : s.z.samples ≠ [])
    (hc : ∀ p ∈ l.st.z.samples, p.time ≤ s.z.endTime) :
    (Tr.computeRob env (.atom s k l r)).map (·.1.st.z) = atomAgain env s.z l.st.z.endTime := by
  obtain ⟨l', x, a1, _, a3, a4⟩ := term_rerun hD hl
  obtain ⟨r', y, b1, _⟩ := term_rerun hD hr
  have hc' : ∀ p ∈ l'.st.z.samples, p.time ≤ s.z.endTime := by
    intro p hp
    have : p.time ∈ times l.st.z.samples := by rw [← a3]; exact List.mem_map_of_mem hp
    obtain ⟨q, hq, e⟩ := List.mem_map.1 this
    exact e ▸ hc q hq
  simp only [Tr.computeRob, a1, b1, ok_bind, Tr.atomRob, atomLoop_skip env.ip k hz _ _ hc', a4,
    atomAgain]
  cases env.sem with
  | SPACE =>
    simp only [ok_bind]
    cases Signal.front { s.z with endTime := l.st.z.endTime } <;> rfl
  | LEFT_TIME =>
    simp only
    cases Signal.computeLeftTimeRob { s.z with endTime := l.st.z.endTime } with
    | error => rfl
    | ok w => simp only [ok_bind]; cases Signal.front w <;> rfl
  | RIGHT_TIME =>
    simp only
    cases Signal.computeRightTimeRob { s.z with endTime := l.st.z.endTime } with
    | error => rfl
    | ok w => simp only [ok_bind]; cases Signal.front w <;> rfl
  | BOOLEAN => rfl

/-- Two results of the first run are alike. -/
theorem alike_past {D' : List (List ℚ)} (hD : WellShaped n env.data) (hD' : WellShaped n D') (T : Tr) :
    ∀ (T' : Tr) b, bare T = bare T' → Settled n env.data T → Settled n D' T' → Reached T →
      Alike env D' b T T' := by
  induction T with
  | atom s k l r =>
    intro T' b hb h1 h2 hr
    cases T' <;> simp only [bare, reduceCtorEq, Tr.atom.injEq] at hb
    rename_i s' k' l' r'
    obtain ⟨rfl, rfl, hl, hr'⟩ := hb
    have e : l.st = l'.st := by rw [← bare_st l, hl, bare_st]
    refine .atom (.refl _ _) ?_
    rw [atom_once_more hD h1.2.1 h1.2.2 hr.1 hr.2,
      atom_once_more (env := { env with data := D' }) hD' h2.2.1 h2.2.2 hr.1 (by rw [← e]; exact hr.2), e]
    rfl
  | not s c ih =>
    intro T' b hb h h' hr
    cases T' <;> simp only [bare, reduceCtorEq, Tr.not.injEq] at hb
    obtain ⟨rfl, hb⟩ := hb
    exact .not (.refl _ _) (ih _ _ hb h h' hr)
  | and s l r ih1 ih2 =>
    intro T' b hb h h' hr
    cases T' <;> simp only [bare, reduceCtorEq, Tr.and.injEq] at hb
    obtain ⟨rfl, hb1, hb2⟩ := hb
    exact .and (.refl _ _) (ih1 _ _ hb1 h.1 h'.1 hr.1) (ih2 _ _ hb2 h.2 h'.2 hr.2)
  | or s l r ih1 ih2 =>
    intro T' b hb h h' hr
    cases T' <;> simp only [bare, reduceCtorEq, Tr.or.injEq] at hb
    obtain ⟨rfl, hb1, hb2⟩ := hb
    exact .or (.refl _ _) (ih1 _ _ hb1 h.1 h'.1 hr.1) (ih2 _ _ hb2 h.2 h'.2 hr.2)
  | implies s l r ih1 ih2 =>
    intro T' b hb h h' hr
    cases T' <;> simp only [bare, reduceCtorEq, Tr.implies.injEq] at hb
    obtain ⟨rfl, hb1, hb2⟩ := hb
    exact .implies (.refl _ _) (ih1 _ _ hb1 h.1 h'.1 hr.1) (ih2 _ _ hb2 h.2 h'.2 hr.2)
  | ev s I c ih =>
    intro T' b hb h h' hr
    cases T' <;> simp only [bare, reduceCtorEq, Tr.ev.injEq] at hb
    obtain ⟨rfl, rfl, hb⟩ := hb
    exact .ev (.refl _ _) (ih _ _ hb h h' hr)
  | alw s I c ih =>
    intro T' b hb h h' hr
    cases T' <;> simp only [bare, reduceCtorEq, Tr.alw.injEq] at hb
    obtain ⟨rfl, rfl, hb⟩ := hb
    exact .alw (.refl _ _) (ih _ _ hb h h' hr)
  | untl s l I r ih1 ih2 =>
    intro T' b hb h h' hr
    cases T' <;> simp only [bare, reduceCtorEq, Tr.untl.injEq] at hb
    obtain ⟨rfl, hb1, rfl, hb2⟩ := hb
    exact .untl (.refl _ _) (ih1 _ _ hb1 h.1 h'.1 hr.1) (ih2 _ _ hb2 h.2 h'.2 hr.2)
  | _ => intro T' b _ h; exact h.elim

/-- The whole evaluation. -/
theorem run3_past {P : Assoc ℚ} {D' : List (List ℚ)} {S E : ℚ} {T : Tr} (hP : env.params = P)
    (hD : WellShaped n env.data) (hD' : WellShaped n D') (ht : IsStl T) (hw : Forward P T)
    (hf : Fresh P S E T) (hs : SamePast env.ip (E + reach P T) env.data D') :
    (Monitor.run3 { env with data := D' } T).map (·.2) = (Monitor.run3 env T).map (·.2) := by
  unfold Monitor.run3
  rcases bare_cases (rob_past hD hD' T ht hf hs) with ⟨e, h2, h1⟩ | ⟨T2, T1, x, h2, h1, h3, _⟩
  · simp only [h1, h2, error_bind]
  have s1 := (rob_settles hD T ht hf h1).1
  have s2 := (rob_settles (env := { env with data := D' }) hD' T ht hf h2).1
  have rc := rob_reached hD hP T ht hw hf h1
  simp only [h1, h2, ok_bind]
  rcases seen_cases (alike_past hD hD' T1 T2 true h3.symm s1 s2 rc).seen with
    ⟨e, e1, e2⟩ | ⟨U, U', lo, e1, e2, _⟩
  · rw [bnd_true] at e1 e2
    simp only [e1, e2, error_bind]
  · obtain ⟨_, k1⟩ := bnd_keeps hD T1 s1 e1
    obtain ⟨_, k2⟩ := bnd_keeps (env := { env with data := D' }) hD' T2 s2 e2
    have hu : (bnd env false U).map (seen false) =
        (bnd { env with data := D' } false U').map (seen false) :=
      k1.seen.symm.trans ((alike_past hD hD' T1 T2 false h3.symm s1 s2 rc).seen.trans k2.seen)
    rw [bnd_true] at e1 e2
    simp only [e1, e2, ok_bind]
    rcases seen_cases hu with ⟨e, f1, f2⟩ | ⟨V, V', up, f1, f2, _⟩
    · rw [bnd_false] at f1 f2
      simp only [f1, f2, error_bind]
    · rw [bnd_false] at f1 f2
      simp only [f1, f2, ok_bind]
      rfl

end STLRom
