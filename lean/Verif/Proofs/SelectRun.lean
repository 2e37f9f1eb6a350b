import Verif.Proofs.Select
import Verif.Proofs.TotalEval
import Verif.Spec.Select

/-!
# Runs in PREVIOUS mode select margins of atoms at rows

In PREVIOUS mode every sample of a signal expression holds the value of the expression in one row,
and the two sides of a comparison hold values of the same row.
-/

namespace STLRom
open Signal Spec

/-- The samples at the times and rows of `l`. -/
def sg (g : List ℚ → ℚ) (l : List (ℚ × List ℚ)) : List Sample := l.map fun x => ⟨x.1, g x.2, 0⟩

theorem sg_nil {g : List ℚ → ℚ} {l : List (ℚ × List ℚ)} : sg g l = [] ↔ l = [] := by simp [sg]

theorem sg_times (g : List ℚ → ℚ) (l : List (ℚ × List ℚ)) : times (sg g l) = l.map Prod.fst := by
  simp [sg, times]

/-- The first time, if there is one, is `b`. -/
def Heads (b : ℚ) (l : List (ℚ × List ℚ)) : Prop := ∀ x, l.head? = some x → x.1 = b

theorem readLoop_sg {stop : ℚ} {D : List (List ℚ)} : ∀ (rows : List (List ℚ)) (l : List (ℚ × List ℚ))
    (b e : ℚ) (td : ℕ) (t : ℚ), (∀ r ∈ rows, r ∈ D) → (∀ x ∈ l, x.2 ∈ D) → Heads b l →
    ∃ l' b' e' k t', (∀ x ∈ l', x.2 ∈ D) ∧ Heads b' l' ∧ (l ≠ [] ∨ rows ≠ [] ∧ t ≤ stop → l' ≠ []) ∧
      ∀ (g : List ℚ → ℚ) (v : ℚ), ∃ w,
        Tr.readLoop .PREVIOUS g stop rows ⟨sg g l, b, e⟩ td t v = .ok (⟨sg g l', b', e'⟩, k, t', w)
  | [], l, b, e, td, t, _, h2, h3 =>
    ⟨l, b, e, td, t, h2, h3, by simp, fun g v => ⟨v, rfl⟩⟩
  | row :: rows, l, b, e, td, t, h1, h2, h3 => by
    by_cases h : t ≤ stop
    · have ha : ∃ l1 b1 e1, (∀ x ∈ l1, x.2 ∈ D) ∧ Heads b1 l1 ∧ l1 ≠ [] ∧ ∀ g : List ℚ → ℚ,
          appendSample0 .PREVIOUS ⟨sg g l, b, e⟩ (rowTime row) (g row) = .ok ⟨sg g l1, b1, e1⟩ := by
        by_cases hc : rowTime row ≤ e ∧ l ≠ []
        · refine ⟨l, b, e, h2, h3, hc.2, fun g => ?_⟩
          unfold appendSample0 appendSample
          rw [if_pos ⟨hc.1, by simpa [sg_nil] using hc.2⟩]
        · by_cases hl : l = []
          · refine ⟨[(rowTime row, row)], rowTime row, rowTime row, by simpa using h1 row (by simp),
              by simp [Heads], by simp, fun g => ?_⟩
            unfold appendSample0 appendSample
            simp [hl, sg]
          · refine ⟨l ++ [(rowTime row, row)], b, rowTime row, ?_, ?_, by simp, fun g => ?_⟩
            · intro x hx
              rcases List.mem_append.1 hx with hx | hx
              · exact h2 x hx
              · rw [List.mem_singleton.1 hx]; exact h1 row (by simp)
            · intro x hx
              rw [List.head?_append_of_ne_nil _ hl] at hx
              exact h3 x hx
            · unfold appendSample0 appendSample
              rw [if_neg (by simpa [sg_nil] using hc)]
              simp only [sg_nil, if_neg hl]
              simp [sg]
      obtain ⟨l1, b1, e1, a1, a2, a3, a4⟩ := ha
      obtain ⟨l', b', e', k, t', c1, c2, c3, c4⟩ := readLoop_sg (stop := stop) rows l1 b1 e1 (td + 1) (rowTime row)
        (fun r hr => h1 r (by simp [hr])) a1 a2
      refine ⟨l', b', e', k, t', c1, c2, fun _ => c3 (Or.inl a3), fun g v => ?_⟩
      obtain ⟨w, hw⟩ := c4 g (g row)
      refine ⟨w, ?_⟩
      simp only [Tr.readLoop, if_pos h, a4 g, bind, Except.bind, hw]
    · refine ⟨l, b, e, td, t, h2, h3, ?_, fun g v => ⟨v, ?_⟩⟩
      · rintro (h' | h')
        · exact h'
        · exact absurd h'.2 h
      · simp only [Tr.readLoop, if_neg h]

theorem trimFront_sg (s : ℚ) : ∀ (l : List (ℚ × List ℚ)) (f : ℚ × List ℚ),
    ∃ f' l', (f' = f ∨ f' ∈ l) ∧ (∀ x ∈ l', x ∈ l) ∧ (∀ x, l'.head? = some x → s ≤ x.1) ∧
      ∀ g : List ℚ → ℚ, trimFront s ⟨f.1, g f.2, 0⟩ (sg g l) = (⟨f'.1, g f'.2, 0⟩, sg g l')
  | [], f => ⟨f, [], Or.inl rfl, by simp, by simp, fun g => rfl⟩
  | p :: r, f => by
    by_cases h : p.1 < s
    · obtain ⟨f', l', h1, h2, h3, h4⟩ := trimFront_sg s r p
      refine ⟨f', l', ?_, fun x hx => by simp [h2 x hx], h3, fun g => ?_⟩
      · rcases h1 with rfl | h1
        · exact Or.inr (by simp)
        · exact Or.inr (by simp [h1])
      · have := h4 g
        simp only [sg, List.map_cons, trimFront, if_pos h] at this ⊢
        exact this
    · refine ⟨f, p :: r, Or.inl rfl, fun x hx => hx, by simpa using not_lt.1 h, fun g => ?_⟩
      simp only [sg, List.map_cons, trimFront, if_neg h]

theorem trimBack_sg (t : ℚ) (l : List (ℚ × List ℚ)) (g : List ℚ → ℚ) :
    trimBack t (sg g l) = sg g (l.reverse.dropWhile fun x => decide (t < x.1)).reverse := by
  have key : ∀ m : List (ℚ × List ℚ), (sg g m).dropWhile (fun p => decide (t < p.time)) =
      sg g (m.dropWhile fun x => decide (t < x.1)) := by
    intro m
    induction m with
    | nil => rfl
    | cons a m ih =>
      simp only [sg, List.map_cons] at ih ⊢
      by_cases h : t < a.1
      · rw [List.dropWhile_cons_of_pos (by simpa using h), List.dropWhile_cons_of_pos (by simpa using h)]
        exact ih
      · rw [List.dropWhile_cons_of_neg (by simpa using h), List.dropWhile_cons_of_neg (by simpa using h)]
        rfl
  have hr : ∀ m : List (ℚ × List ℚ), (sg g m).reverse = sg g m.reverse := fun m => by
    simp [sg]
  unfold trimBack
  rw [hr, key, hr]

theorem dropWhile_snoc {α : Type} {q : α → Bool} {x : α} (h : q x = false) : ∀ m : List α,
    ∃ m', (m ++ [x]).dropWhile q = m' ++ [x] ∧ ∀ y ∈ m', y ∈ m
  | [] => ⟨[], by simp [h], by simp⟩
  | a :: m => by
    by_cases ha : q a = true
    · obtain ⟨m', h1, h2⟩ := dropWhile_snoc h m
      exact ⟨m', by rw [List.cons_append, List.dropWhile_cons_of_pos ha, h1], fun y hy => by simp [h2 y hy]⟩
    · exact ⟨a :: m, by rw [List.cons_append, List.dropWhile_cons_of_neg ha], fun y hy => hy⟩

theorem sgBack_head {t : ℚ} {x : ℚ × List ℚ} {l : List (ℚ × List ℚ)} (h : x.1 ≤ t) :
    ∃ l', ((x :: l).reverse.dropWhile fun y => decide (t < y.1)).reverse = x :: l' ∧ ∀ y ∈ l', y ∈ l := by
  obtain ⟨m', h1, h2⟩ := dropWhile_snoc (q := fun y : ℚ × List ℚ => decide (t < y.1)) (x := x)
    (by simpa using h) l.reverse
  refine ⟨m'.reverse, ?_, fun y hy => List.mem_reverse.1 (h2 y (List.mem_reverse.1 hy))⟩
  rw [List.reverse_cons, h1, List.reverse_append, List.reverse_singleton, List.singleton_append]

theorem resize_sg {D : List (List ℚ)} {l : List (ℚ × List ℚ)} {b e s : ℚ} (hl : l ≠ []) (hD : ∀ x ∈ l, x.2 ∈ D)
    (hb : Heads b l) (hs : s ≤ e) : ∃ l', (∀ x ∈ l', x.2 ∈ D) ∧ l' ≠ [] ∧ ∀ (g : List ℚ → ℚ) (v : ℚ),
      resize ⟨sg g l, b, e⟩ s e v = .ok ⟨sg g l', s, e⟩ := by
  have key : ∀ (x : ℚ × List ℚ) (m : List (ℚ × List ℚ)) (b : ℚ), x.1 = s → (∀ y ∈ x :: m, y.2 ∈ D) →
      ∃ l', (∀ x ∈ l', x.2 ∈ D) ∧ l' ≠ [] ∧ ∀ (g : List ℚ → ℚ) (v : ℚ),
        resizeBack ⟨sg g (x :: m), b, e⟩ s e v = .ok ⟨sg g l', s, e⟩ := by
    intro x m b hx hm
    obtain ⟨l', h1, h2⟩ := sgBack_head (t := e) (x := x) (l := m) (hx.le.trans hs)
    refine ⟨x :: l', ?_, by simp, fun g v => ?_⟩
    · intro y hy
      rcases List.mem_cons.1 hy with rfl | hy
      · exact hm y (by simp)
      · exact hm y (by simp [h2 y hy])
    · unfold resizeBack
      rw [if_neg (by simp), trimBack_sg, h1]
      simp [sg, bind, Except.bind]
  have htol : ¬ e < s - tol := by
    have := tol_pos
    intro h
    linarith
  obtain ⟨y, m, rfl⟩ := List.exists_cons_of_ne_nil hl
  have hy : y.1 = b := hb y (by simp)
  by_cases h : s < b
  · obtain ⟨l', h1, h2, h3⟩ := key (s, y.2) (y :: m) b rfl (by
      intro z hz
      rcases List.mem_cons.1 hz with rfl | hz
      · exact hD y (by simp)
      · exact hD z hz)
    refine ⟨l', h1, h2, fun g v => ?_⟩
    unfold resize
    rw [if_neg htol, if_neg (not_lt.2 hs)]
    unfold resizeFront
    rw [if_pos h]
    exact h3 g v
  · by_cases hys : y.1 < s
    · -- the first sample is dropped
      obtain ⟨f', l1, a1, a2, a3, a4⟩ := trimFront_sg s m y
      have hf : f'.2 ∈ D := by
        rcases a1 with rfl | a1
        · exact hD _ (by simp)
        · exact hD _ (by simp [a1])
      have e1 : ∀ g : List ℚ → ℚ, trimFront s Sample.zero (sg g (y :: m)) = (⟨f'.1, g f'.2, 0⟩, sg g l1) := by
        intro g
        rw [← a4 g]
        simp only [sg, List.map_cons, trimFront, if_pos hys]
      cases l1 with
      | nil =>
        obtain ⟨l', h1, h2, h3⟩ := key (s, f'.2) [] b rfl (by simpa using hf)
        refine ⟨l', h1, h2, fun g v => ?_⟩
        unfold resize
        rw [if_neg htol, if_neg (not_lt.2 hs)]
        unfold resizeFront
        rw [if_neg h, e1 g]
        simp only [sg, List.map_nil, Sample.valueAt, if_neg (not_lt.2 hs), bind, Except.bind]
        have := h3 g v
        simpa [sg] using this
      | cons p r =>
        have hp : s ≤ p.1 := a3 p (by simp)
        by_cases hsp : s < p.1
        · obtain ⟨l', h1, h2, h3⟩ := key (s, f'.2) (p :: r) b rfl (by
            intro z hz
            rcases List.mem_cons.1 hz with rfl | hz
            · exact hf
            · exact hD z (by simp [a2 z hz]))
          refine ⟨l', h1, h2, fun g v => ?_⟩
          unfold resize
          rw [if_neg htol, if_neg (not_lt.2 hs)]
          unfold resizeFront
          rw [if_neg h, e1 g]
          simp only [sg, List.map_cons, Sample.valueAt, if_pos hsp, bind, Except.bind]
          have := h3 g v
          simpa [sg] using this
        · obtain ⟨l', h1, h2, h3⟩ := key p r b (le_antisymm (not_lt.1 hsp) hp) (by
            intro z hz
            exact hD z (by simp [a2 z hz]))
          refine ⟨l', h1, h2, fun g v => ?_⟩
          unfold resize
          rw [if_neg htol, if_neg (not_lt.2 hs)]
          unfold resizeFront
          rw [if_neg h, e1 g]
          simp only [sg, List.map_cons, if_neg hsp, bind, Except.bind]
          have := h3 g v
          simpa [sg] using this
    · have hys' : y.1 = s := le_antisymm (hy ▸ not_lt.1 h) (not_lt.1 hys)
      obtain ⟨l', h1, h2, h3⟩ := key y m b hys' hD
      refine ⟨l', h1, h2, fun g v => ?_⟩
      unfold resize
      rw [if_neg htol, if_neg (not_lt.2 hs)]
      unfold resizeFront
      rw [if_neg h]
      simp only [sg, List.map_cons, trimFront, if_neg hys, if_neg (show ¬ s < y.1 by rw [hys']; exact lt_irrefl _), bind, Except.bind]
      have := h3 g v
      simpa [sg] using this

theorem leafTrim_sg {D : List (List ℚ)} {l : List (ℚ × List ℚ)} {b e : ℚ} (S E t : ℚ) (hl : l ≠ [])
    (hD : ∀ x ∈ l, x.2 ∈ D) (hb : Heads b l) : ∃ l' b' e', (∀ x ∈ l', x.2 ∈ D) ∧ l' ≠ [] ∧
      ∀ (g : List ℚ → ℚ) (v : ℚ), Tr.leafTrim S E ⟨sg g l, b, e⟩ t v = .ok ⟨sg g l', b', e'⟩ := by
  have key : ∀ e : ℚ, ∃ l' b' e', (∀ x ∈ l', x.2 ∈ D) ∧ l' ≠ [] ∧ ∀ (g : List ℚ → ℚ) (v : ℚ),
      (if S < e then resize ⟨sg g l, b, e⟩ S (max S e) v else resize ⟨sg g l, b, e⟩ e e v) =
        .ok ⟨sg g l', b', e'⟩ := by
    intro e
    by_cases h : S < e
    · obtain ⟨l', h1, h2, h3⟩ := resize_sg hl hD hb h.le
      exact ⟨l', S, e, h1, h2, fun g v => by rw [if_pos h, max_eq_right h.le]; exact h3 g v⟩
    · obtain ⟨l', h1, h2, h3⟩ := resize_sg (s := e) hl hD hb le_rfl
      exact ⟨l', e, e, h1, h2, fun g v => by rw [if_neg h]; exact h3 g v⟩
  by_cases h : E < t
  · obtain ⟨l', b', e', h1, h2, h3⟩ := key E
    refine ⟨l', b', e', h1, h2, fun g v => ?_⟩
    unfold Tr.leafTrim
    rw [if_pos h]
    exact h3 g v
  · obtain ⟨l', b', e', h1, h2, h3⟩ := key e
    refine ⟨l', b', e', h1, h2, fun g v => ?_⟩
    unfold Tr.leafTrim
    rw [if_neg h]
    exact h3 g v

/-- The first run of the leaves: the same times and rows for all. -/
theorem leaf_rows (D : List (List ℚ)) (S E : ℚ) : ∃ l : List (ℚ × List ℚ), (∀ x ∈ l, x.2 ∈ D) ∧
    (D ≠ [] → 0 ≤ E → ∃ b e k t, ∀ g : List ℚ → ℚ, ∃ z0 w,
      Tr.readLoop .PREVIOUS g E D Signal.empty 0 0 0 = .ok (z0, k, t, w) ∧
        ∀ v, Tr.leafTrim S E z0 t v = .ok ⟨sg g l, b, e⟩) := by
  by_cases h : D ≠ [] ∧ 0 ≤ E
  · obtain ⟨l', b', e', k, t', h1, h2, h3, h4⟩ := readLoop_sg (stop := E) (D := D) D [] 0 0 0 0 (fun _ h => h)
      (by simp) (by simp [Heads])
    obtain ⟨l, b, e, a1, a2, a3⟩ := leafTrim_sg (e := e') S E t' (h3 (Or.inr h)) h1 h2
    refine ⟨l, a1, fun _ _ => ⟨b, e, k, t', fun g => ?_⟩⟩
    obtain ⟨w, hw⟩ := h4 g 0
    exact ⟨_, w, hw, a3 g⟩
  · exact ⟨[], by simp, fun h1 h2 => absurd ⟨h1, h2⟩ h⟩

/-! ## Expressions -/

/-- The signal of every subexpression holds its values in the rows of `l`. -/
def Rows (P : Assoc ℚ) (l : List (ℚ × List ℚ)) : Tr → Prop
  | .sig s v m td => s.z.samples = sg (fun r => rowExpr P r (.sig s v m td)) l
  | .const s p v td => s.z.samples = sg (fun r => rowExpr P r (.const s p v td)) l
  | .abs s c => s.z.samples = sg (fun r => rowExpr P r (.abs s c)) l ∧ Rows P l c
  | .plus s a b => s.z.samples = sg (fun r => rowExpr P r (.plus s a b)) l ∧ Rows P l a ∧ Rows P l b
  | .minus s a b => s.z.samples = sg (fun r => rowExpr P r (.minus s a b)) l ∧ Rows P l a ∧ Rows P l b
  | .mult s a b => s.z.samples = sg (fun r => rowExpr P r (.mult s a b)) l ∧ Rows P l a ∧ Rows P l b
  | _ => False

theorem Rows.samples {P : Assoc ℚ} {l : List (ℚ × List ℚ)} {T : Tr} (h : Rows P l T) :
    T.st.z.samples = sg (fun r => rowExpr P r T) l := by
  cases T with
  | sig | const => exact h
  | abs | plus | minus | mult => exact h.1
  | _ => exact h.elim

theorem absLoop_sg {l : List (ℚ × List ℚ)} (g : List ℚ → ℚ) :
    ∀ (l0 : List (ℚ × List ℚ)) (b e : ℚ), ((l0 ++ l).map Prod.fst).Pairwise (· < ·) →
      (∀ x, l0.getLast? = some x → x.1 = e) →
      ∃ b' e', Tr.absLoop .PREVIOUS ⟨sg (fun r => |g r|) l0, b, e⟩ (sg g l) =
        .ok ⟨sg (fun r => |g r|) (l0 ++ l), b', e'⟩ := by
  induction l with
  | nil => exact fun l0 b e _ _ => ⟨b, e, by simp [sg, Tr.absLoop]⟩
  | cons x l ih =>
    intro l0 b e hp he
    have hlt : l0 ≠ [] → e < x.1 := by
      intro h
      obtain ⟨y, hy⟩ : ∃ y, l0.getLast? = some y := ⟨_, List.getLast?_eq_some_getLast h⟩
      rw [← he y hy]
      rw [List.map_append] at hp
      exact (List.pairwise_append.1 hp).2.2 y.1 (List.mem_map_of_mem (List.mem_of_getLast? hy)) x.1 (by simp)
    have ha : ∃ b1, appendSample0 .PREVIOUS ⟨sg (fun r => |g r|) l0, b, e⟩ x.1 |g x.2| =
        .ok ⟨sg (fun r => |g r|) (l0 ++ [x]), b1, x.1⟩ := by
      unfold appendSample0 appendSample
      by_cases h : l0 = []
      · exact ⟨x.1, by simp [h, sg]⟩
      · refine ⟨b, ?_⟩
        rw [if_neg (by intro h'; exact absurd h'.1 (not_le.2 (hlt h)))]
        simp [sg, h]
    obtain ⟨b1, ha⟩ := ha
    obtain ⟨b', e', h'⟩ := ih (l0 ++ [x]) b1 x.1 (by simpa using hp) (by simp)
    refine ⟨b', e', ?_⟩
    rw [show l0 ++ x :: l = l0 ++ [x] ++ l by simp, ← h']
    simp only [sg, List.map_cons, Tr.absLoop] at ha ⊢
    rw [ha]
    rfl

theorem binLoop_sg {l : List (ℚ × List ℚ)} (f : ℚ → ℚ → ℚ) (g1 g2 : List ℚ → ℚ) :
    ∀ (l0 : List (ℚ × List ℚ)) (b e : ℚ), ((l0 ++ l).map Prod.fst).Pairwise (· < ·) →
      (∀ x, l0.getLast? = some x → x.1 = e) →
      ∃ b' e', Tr.binLoop .PREVIOUS f ⟨sg (fun r => f (g1 r) (g2 r)) l0, b, e⟩ (sg g1 l) (sg g2 l) =
        .ok ⟨sg (fun r => f (g1 r) (g2 r)) (l0 ++ l), b', e'⟩ := by
  induction l with
  | nil => exact fun l0 b e _ _ => ⟨b, e, by simp [sg, Tr.binLoop]⟩
  | cons x l ih =>
    intro l0 b e hp he
    have hlt : l0 ≠ [] → e < x.1 := by
      intro h
      obtain ⟨y, hy⟩ : ∃ y, l0.getLast? = some y := ⟨_, List.getLast?_eq_some_getLast h⟩
      rw [← he y hy]
      rw [List.map_append] at hp
      exact (List.pairwise_append.1 hp).2.2 y.1 (List.mem_map_of_mem (List.mem_of_getLast? hy)) x.1 (by simp)
    have ha : ∃ b1, appendSample0 .PREVIOUS ⟨sg (fun r => f (g1 r) (g2 r)) l0, b, e⟩ x.1 (f (g1 x.2) (g2 x.2)) =
        .ok ⟨sg (fun r => f (g1 r) (g2 r)) (l0 ++ [x]), b1, x.1⟩ := by
      unfold appendSample0 appendSample
      by_cases h : l0 = []
      · exact ⟨x.1, by simp [h, sg]⟩
      · refine ⟨b, ?_⟩
        rw [if_neg (by intro h'; exact absurd h'.1 (not_le.2 (hlt h)))]
        simp [sg, h]
    obtain ⟨b1, ha⟩ := ha
    obtain ⟨b', e', h'⟩ := ih (l0 ++ [x]) b1 x.1 (by simpa using hp) (by simp)
    refine ⟨b', e', ?_⟩
    rw [show l0 ++ x :: l = l0 ++ [x] ++ l by simp, ← h']
    simp only [sg, List.map_cons, Tr.binLoop] at ha ⊢
    rw [ha]
    rfl


section
variable {env : Env} {n : ℕ} {P : Assoc ℚ}

theorem leafTimes_sg {D : List (List ℚ)} {start stop : ℚ} {z : Signal} {k : ℕ} (h : LeafInv D start stop z k)
    {g : List ℚ → ℚ} {l : List (ℚ × List ℚ)} (e : z.samples = sg g l) :
    (l.map Prod.fst).Pairwise (· < ·) := by
  rw [← sg_times g, ← e]
  exact sinc_times h.sig.incr.inc

/-- The first run of an expression, if it succeeds. -/
theorem term_rows (hD : WellShaped n env.data) (hp : env.ip = .PREVIOUS) {S E : ℚ} :
    ∃ l : List (ℚ × List ℚ), (∀ x ∈ l, x.2 ∈ env.data) ∧ ∀ {T T' : Tr} {x : ℚ}, IsExpr n T →
      Fresh P S E T → Tr.computeRob env T = .ok (T', x) → EInv n env.data T' ∧ Rows env.params l T' ∧
        (l.map Prod.fst).Pairwise (· < ·) ∧ IsExpr n T' ∧
        ∀ row, rowExpr env.params row T' = rowExpr env.params row T := by
  obtain ⟨l, hl, hrun⟩ := leaf_rows env.data S E
  refine ⟨l, hl, fun {T} => ?_⟩
  induction T with
  | sig s v m td =>
    intro T' x he hf h
    obtain ⟨⟨f1, f2, f3, _, _⟩, rfl⟩ := hf
    obtain ⟨i, hi, hi0, hin⟩ := he
    have hI := sig_run hD f3 h
    simp only [Tr.computeRob] at h
    obtain ⟨⟨z, td, r⟩, h1, h2⟩ := bind_eq_ok.1 h
    simp only [Except.ok.injEq, Prod.mk.injEq] at h2
    obtain ⟨rfl, rfl⟩ := h2
    have hI' := hI
    simp only [EInv, hi, Option.getD_some] at hI'
    obtain ⟨_, _, k, rfl, hk⟩ := hI'.resolve_left (by omega)
    obtain ⟨i, rfl⟩ : ∃ j, i = j + 1 := ⟨i - 1, by omega⟩
    obtain ⟨b, e, k', t, hrun⟩ := hrun hk.data (f2 ▸ hk.nonneg)
    obtain ⟨z0, w, a1, a2⟩ := hrun fun r => r.getD (i + 1) 0
    unfold Tr.sigRob at h1
    simp only [hi, Option.getD_some, f3, List.drop_zero] at h1
    split_ifs at h1
    rw [Tr.sigRead_eq _ _ n _ hin _ _ _ _ _ hD.1, hp, f2, a1] at h1
    simp only [bind, Except.bind, f1, a2 w] at h1
    cases hq : (Signal.mk (sg (fun r => r.getD (i + 1) 0) l) b e).front with
    | error f => rw [hq] at h1; cases h1
    | ok q =>
      rw [hq] at h1
      simp only [Except.ok.injEq, Prod.mk.injEq] at h1
      obtain ⟨rfl, h1, _⟩ := h1
      have hR : Rows env.params l (.sig { s with z := ⟨sg (fun r => r.getD (i + 1) 0) l, b, e⟩ } v m (some k)) := by
        simp [Rows, rowExpr, hi]
      exact ⟨hI, hR, leafTimes_sg (g := fun r => r.getD (i + 1) 0) hk rfl, ⟨_, hi, hi0, hin⟩, fun row => rfl⟩
  | const s p v td =>
    intro T' x he hf h
    obtain ⟨⟨f1, f2, f3, _, _⟩, rfl⟩ := hf
    have hI := const_run hD f3 h
    simp only [Tr.computeRob] at h
    obtain ⟨⟨z, td⟩, h1, h2⟩ := bind_eq_ok.1 h
    simp only [Except.ok.injEq, Prod.mk.injEq] at h2
    obtain ⟨rfl, rfl⟩ := h2
    obtain ⟨k, rfl, hk⟩ := hI
    obtain ⟨b, e, k', t, hrun⟩ := hrun hk.data (f2 ▸ hk.nonneg)
    obtain ⟨z0, w, a1, a2⟩ := hrun fun _ => Tr.constValue env.params p v
    unfold Tr.constRob at h1
    simp only [f3, List.drop_zero] at h1
    split_ifs at h1
    rw [Tr.constRead_eq _ n _ _ _ _ _ _ 0 hD.1, hp, f2, a1] at h1
    simp only [bind, Except.bind, Except.map, f1, a2, Except.ok.injEq, Prod.mk.injEq] at h1
    obtain ⟨rfl, h1⟩ := h1
    have hn : number env.params p (Tr.constValue env.params p v) = Tr.constValue env.params p v := by
      unfold number Tr.constValue
      split_ifs <;> rfl
    refine ⟨⟨k, rfl, hk⟩, ?_, leafTimes_sg (g := fun _ => Tr.constValue env.params p v) hk rfl, trivial, fun row => ?_⟩
    · simp only [Rows, rowExpr, hn]
    · simp only [rowExpr, hn]; rfl
  | abs s c ih =>
    intro T' x he hf h
    have hI := term_run hD (P := P) (S := S) (E := E) (T := .abs s c) (show IsTerm (.abs s c) from Spec.IsExpr.term (T := .abs s c) he) hf h
    simp only [Tr.computeRob] at h
    obtain ⟨⟨c', y⟩, h1, h⟩ := bind_eq_ok.1 h
    obtain ⟨z, h2, h⟩ := bind_eq_ok.1 h
    obtain ⟨p, h3, h⟩ := bind_eq_ok.1 h
    simp only [Except.ok.injEq, Prod.mk.injEq] at h
    obtain ⟨rfl, rfl⟩ := h
    obtain ⟨a1, a2, a3, a4, a5⟩ := ih he hf.2 h1
    rw [hf.1.2.2.1, a2.samples, hp] at h2
    obtain ⟨b', e', h'⟩ := absLoop_sg (l := l) (fun r => rowExpr env.params r c') [] 0 0 (by simpa using a3) (by simp)
    have h'' : z = _ := Except.ok.inj (h2.symm.trans h')
    subst h''
    exact ⟨hI, ⟨rfl, a2⟩, a3, a4, fun row => by simp only [rowExpr, a5]⟩
  | plus s u w ih1 ih2 | minus s u w ih1 ih2 | mult s u w ih1 ih2 =>
    intro T' x he hf h
    have hI := term_run hD (P := P) (S := S) (E := E) (Spec.IsExpr.term he) hf h
    simp only [Tr.computeRob] at h
    obtain ⟨⟨u', y⟩, h1, h⟩ := bind_eq_ok.1 h
    obtain ⟨⟨w', y'⟩, h2, h⟩ := bind_eq_ok.1 h
    obtain ⟨z, h3, h⟩ := bind_eq_ok.1 h
    obtain ⟨p, h4, h⟩ := bind_eq_ok.1 h
    simp only [Except.ok.injEq, Prod.mk.injEq] at h
    obtain ⟨rfl, rfl⟩ := h
    obtain ⟨a1, a2, a3, a4, a5⟩ := ih1 he.1 hf.2.1 h1
    obtain ⟨b1, b2, b3, b4, b5⟩ := ih2 he.2 hf.2.2 h2
    rw [hf.1.2.2.1, a2.samples, b2.samples, hp] at h3
    obtain ⟨b', e', h'⟩ := binLoop_sg (l := l) _ (fun r => rowExpr env.params r u') (fun r => rowExpr env.params r w')
      [] 0 0 (by simpa using a3) (by simp)
    have h'' : z = _ := Except.ok.inj (h3.symm.trans h')
    subst h''
    exact ⟨hI, ⟨rfl, a2, b2⟩, a3, ⟨a4, b4⟩, fun row => by simp only [rowExpr, a5, b5]⟩
  | _ => intro T' x he; exact he.elim

/-- A further run of a leaf in PREVIOUS mode leaves its samples as they are. -/
theorem readLoop_same {g : List ℚ → ℚ} {start stop : ℚ} {D : List (List ℚ)} {z : Signal} {td : ℕ}
    (h : LeafInv D start stop z td) :
    ∃ z0 k t v, Tr.readLoop .PREVIOUS g stop (D.drop td) z td 0 0 = .ok (z0, k, t, v) ∧
      ∀ w, ∃ z', Tr.leafTrim start stop z0 t w = .ok z' ∧ z'.samples = z.samples := by
  rcases hd : D.drop td with _ | ⟨row, rows⟩
  · exact ⟨z, td, 0, 0, rfl, fun w => ⟨z, leafTrim_id h.sig h.nonneg, rfl⟩⟩
  · have hE : z.endTime = stop := h.done.resolve_left (by simp [hd])
    have hrow := h.rest row (by simp [hd])
    have hlt : stop < rowTime row := hE ▸ hrow
    set z1 : Signal := ⟨z.samples ++ [⟨rowTime row, g row, 0⟩], z.beginTime, rowTime row⟩ with hz1
    have a1 : z.appendSample0 .PREVIOUS (rowTime row) (g row) = .ok z1 := by
      unfold appendSample0 appendSample
      rw [if_neg (by intro h'; linarith [h'.1])]
      simp only [if_neg h.sig.incr.ne, hz1]
    obtain ⟨b1, b2, b3, b4⟩ := incr_snoc (z' := z1) h.sig.incr h.sig.le rfl hrow rfl rfl rfl
    refine ⟨z1, td + 1, rowTime row, g row, ?_, fun w => ?_⟩
    · simp only [Tr.readLoop, if_pos h.nonneg, a1, bind, Except.bind]
      cases rows with
      | nil => rfl
      | cons r rs => simp only [Tr.readLoop, if_neg (not_le.2 hlt)]
    · have hb : z.beginTime ≤ z.endTime := h.sig.begin_le
      have hs := h.sig.start
      have key := resize_snoc (x := { z1 with endTime := stop }) (v := w)
        ⟨b1.ne, b1.head, b1.inc⟩ rfl b3 (fun p hp => (b4 p hp).trans hE.le) hlt
        (by rw [← hE]; exact hb)
      refine ⟨⟨z.samples, z.beginTime, stop⟩, ?_, rfl⟩
      unfold Tr.leafTrim
      rw [if_pos hlt]
      rw [hE] at hs
      simp only
      split_ifs with h'
      · rw [if_pos h'] at hs
        rw [max_eq_right h'.le, ← hs]
        exact key
      · rw [if_neg h'] at hs
        simp only [hz1, hs] at key ⊢
        exact key

/-- A further run of an expression in PREVIOUS mode leaves all its samples as they are. -/
theorem term_again (hD : WellShaped n env.data) (hp : env.ip = .PREVIOUS) {l : List (ℚ × List ℚ)} :
    ∀ {T T' : Tr} {x : ℚ}, IsExpr n T → EInv n env.data T → Rows env.params l T →
      Tr.computeRob env T = .ok (T', x) → EInv n env.data T' ∧ Rows env.params l T' ∧ IsExpr n T' ∧
        ∀ row, rowExpr env.params row T' = rowExpr env.params row T := by
  intro T
  induction T with
  | sig s v m td =>
    intro T' x he hI hR h
    obtain ⟨T1, x1, c1, c2, _, _⟩ := sig_rerun hD hI
    have hT : T1 = T' := congrArg Prod.fst (Except.ok.inj (c1.symm.trans h))
    subst hT
    obtain ⟨i, hi, hi0, hin⟩ := he
    obtain ⟨i, rfl⟩ : ∃ j, i = j + 1 := ⟨i - 1, by omega⟩
    simp only [EInv, hi, Option.getD_some] at hI
    obtain ⟨_, _, k, rfl, hk⟩ := hI.resolve_left (by omega)
    obtain ⟨z0, k', t, w, a1, a2⟩ := readLoop_same (g := fun r => r.getD (i + 1) 0) hk
    obtain ⟨z', a3, a4⟩ := a2 w
    simp only [Tr.computeRob, Tr.sigRob, hi, Option.getD_some, if_neg (fun e : env.data = [] ∧ 0 ≤ s.stop => hk.data e.1)] at h
    rw [Tr.sigRead_eq _ _ n _ hin _ _ _ _ _ fun r hr => hD.1 r (List.mem_of_mem_drop hr), hp, a1] at h
    simp only [bind, Except.bind, a3] at h
    cases hq : z'.front with
    | error f => rw [hq] at h; cases h
    | ok q =>
      rw [hq] at h
      simp only [Except.ok.injEq, Prod.mk.injEq] at h
      obtain ⟨rfl, rfl⟩ := h
      exact ⟨c2, a4.trans hR, ⟨_, hi, hi0, hin⟩, fun row => rfl⟩
  | const s p v td =>
    intro T' x he hI hR h
    obtain ⟨T1, x1, c1, c2, _, _⟩ := const_rerun hD hI
    have hT : T1 = T' := congrArg Prod.fst (Except.ok.inj (c1.symm.trans h))
    subst hT
    obtain ⟨k, rfl, hk⟩ := hI
    obtain ⟨z0, k', t, w, a1, a2⟩ := readLoop_same (g := fun _ => Tr.constValue env.params p v) hk
    obtain ⟨z', a3, a4⟩ := a2 (Tr.constValue env.params p v)
    simp only [Tr.computeRob, Tr.constRob, if_neg (fun e : env.data = [] ∧ 0 ≤ s.stop => hk.data e.1)] at h
    rw [Tr.constRead_eq _ n _ _ _ _ _ _ 0 fun r hr => hD.1 r (List.mem_of_mem_drop hr), hp, a1] at h
    simp only [bind, Except.bind, Except.map, a3, Except.ok.injEq, Prod.mk.injEq] at h
    obtain ⟨rfl, rfl⟩ := h
    have hn : number env.params p (Tr.constValue env.params p v) = number env.params p v := by
      unfold number Tr.constValue
      split_ifs <;> rfl
    refine ⟨c2, ?_, trivial, fun row => ?_⟩
    · simp only [Rows, rowExpr, hn] at hR ⊢
      exact a4.trans hR
    · simp only [rowExpr, hn]
  | abs s c ih =>
    intro T' x he hI hR h
    obtain ⟨T1, x1, c1, c2, _, _⟩ := term_rerun hD (T := .abs s c) hI
    have hT : T1 = T' := congrArg Prod.fst (Except.ok.inj (c1.symm.trans h))
    subst hT
    obtain ⟨c', y, a1, a2, a3, a4⟩ := term_rerun hD hI.2
    have hle := le_of_times a3 hI.1.2.2
    obtain ⟨d1, d2, d3, d4⟩ := ih he hI.2 hR.2 a1
    obtain ⟨p, hq⟩ := front_ok hI.1.1
    simp only [Tr.computeRob, a1, bind, Except.bind, absLoop_skip env.ip hI.1.1 _ hle, hq, Except.ok.injEq, Prod.mk.injEq] at h
    obtain ⟨rfl, rfl⟩ := h
    refine ⟨c2, ⟨?_, d2⟩, d3, fun row => by simp only [rowExpr, d4]⟩
    simp only [rowExpr, d4]
    exact hR.1
  | plus s u w ih1 ih2 | minus s u w ih1 ih2 | mult s u w ih1 ih2 =>
    intro T' x he hI hR h
    obtain ⟨T1, x1, c1, c2, _, _⟩ := term_rerun hD hI
    have hT : T1 = T' := congrArg Prod.fst (Except.ok.inj (c1.symm.trans h))
    subst hT
    obtain ⟨h1, h2, h3, h4⟩ := hI
    obtain ⟨u', y, a1, a2, a3, a4⟩ := term_rerun hD h3
    obtain ⟨w', y', b1, b2, b3, b4⟩ := term_rerun hD h4
    have hle := le_of_times a3 h1.2.2
    have hlen : u'.st.z.samples.length ≤ w'.st.z.samples.length := by
      rw [len_of_times a3, len_of_times b3]; exact h2
    obtain ⟨d1, d2, d3, d4⟩ := ih1 he.1 h3 hR.2.1 a1
    obtain ⟨e1, e2, e3, e4⟩ := ih2 he.2 h4 hR.2.2 b1
    obtain ⟨p, hq⟩ := front_ok h1.1
    simp only [Tr.computeRob, a1, b1, bind, Except.bind, binLoop_skip env.ip _ h1.1 _ _ hle hlen, hq, Except.ok.injEq, Prod.mk.injEq] at h
    obtain ⟨rfl, rfl⟩ := h
    refine ⟨c2, ⟨?_, d2, e2⟩, ⟨d3, e3⟩, fun row => by simp only [rowExpr, d4, e4]⟩
    simp only [rowExpr, d4, e4]
    exact hR.1
  | _ => intro T' x he; exact he.elim

/-! ## Formulas -/

/-- The signals of a node. -/
def StIn (V : ℚ → Prop) (s : St) : Prop := SIn V s.z ∧ SIn V s.zlow ∧ SIn V s.zup

/-- A formula whose margins at the rows are in `V`, and whose signals have their values in `V`. -/
def TIn (V : ℚ → Prop) (n : ℕ) (D : List (List ℚ)) (P : Assoc ℚ) : Tr → Prop
  | .atom s k l r => StIn V s ∧ (∀ row ∈ D, V (margin k (rowExpr P row l) (rowExpr P row r))) ∧
      IsExpr n l ∧ IsExpr n r ∧
      ((∃ S E, Fresh P S E l ∧ Fresh P S E r) ∨
        ∃ q : List (ℚ × List ℚ), (∀ x ∈ q, x.2 ∈ D) ∧ EInv n D l ∧ EInv n D r ∧ Rows P q l ∧ Rows P q r)
  | .not s c | .ev s _ c | .alw s _ c => StIn V s ∧ TIn V n D P c
  | .and s l r | .or s l r | .implies s l r | .untl s l _ r => StIn V s ∧ TIn V n D P l ∧ TIn V n D P r
  | _ => False

variable {V : ℚ → Prop}

theorem TIn.st {D : List (List ℚ)} {T : Tr} (h : TIn V n D P T) : StIn V T.st := by
  cases T with
  | atom | not | ev | alw | and | or | implies | untl => exact h.1
  | _ => exact h.elim

theorem tin_setSt {D : List (List ℚ)} {T : Tr} {s : St} (h : TIn V n D P T) (hs : StIn V s) :
    TIn V n D P (T.setSt s) := by
  cases T with
  | atom | not | ev | alw | and | or | implies | untl => exact ⟨hs, h.2⟩
  | _ => exact h.elim

theorem front_in {z : Signal} (h : SIn V z) : Post (fun p => V p.value) z.front := by
  unfold Signal.front
  split
  · exact post_error
  · rename_i p r e
    exact post_ok (h p (by simp [e])).1

theorem atomLoop_in {k : Cmp} {gl gr : List ℚ → ℚ} : ∀ (q : List (ℚ × List ℚ)) (z : Signal), SIn V z →
    (∀ x ∈ q, V (margin k (gl x.2) (gr x.2))) →
    Post (SIn V) (Tr.atomLoop .PREVIOUS k z (sg gl q) (sg gr q))
  | [], z, hz, _ => by simp only [sg, List.map_nil, Tr.atomLoop]; exact post_ok hz
  | x :: q, z, hz, h => by
    have hx := h x (by simp)
    simp only [sg, List.map_cons, Tr.atomLoop]
    cases k with
    | less => exact post_bind (append_in hz _ _ hx) fun z' hz' =>
        atomLoop_in q z' hz' fun y hy => h y (by simp [hy])
    | greater => exact post_bind (append_in hz _ _ hx) fun z' hz' =>
        atomLoop_in q z' hz' fun y hy => h y (by simp [hy])

theorem atomRob_in (hp : env.ip = .PREVIOUS) (hs : env.sem = .SPACE) {k : Cmp} {gl gr : List ℚ → ℚ}
    {q : List (ℚ × List ℚ)} {z zl zr : Signal} (hz : SIn V z) (h1 : zl.samples = sg gl q)
    (h2 : zr.samples = sg gr q) (h : ∀ x ∈ q, V (margin k (gl x.2) (gr x.2))) :
    Post (SIn V) (Tr.atomRob env k z zl zr) := by
  unfold Tr.atomRob
  rw [hp, hs, h1, h2]
  exact post_bind (atomLoop_in q z hz h) fun z' hz' => post_ok hz'

/-- What holds after a run. -/
def Good (V : ℚ → Prop) (n : ℕ) (env : Env) (r : Tr × ℚ) : Prop := TIn V n env.data env.params r.1 ∧ V r.2

theorem rob_in (hV : Vals env.B V) (hD : WellShaped n env.data) (hp : env.ip = .PREVIOUS)
    (hs : env.sem = .SPACE) : ∀ {T : Tr}, TIn V n env.data env.params T → Post (Good V n env) (T.computeRob env) := by
  intro T
  induction T with
  | atom s k l r =>
    rintro ⟨h1, h2, h3, h4, h5⟩
    simp only [Tr.computeRob]
    have hb : ∃ q : List (ℚ × List ℚ), (∀ x ∈ q, x.2 ∈ env.data) ∧
        ∀ l' x r' y, l.computeRob env = .ok (l', x) → r.computeRob env = .ok (r', y) →
          EInv n env.data l' ∧ EInv n env.data r' ∧ Rows env.params q l' ∧ Rows env.params q r' ∧
          IsExpr n l' ∧ IsExpr n r' ∧ (∀ row, rowExpr env.params row l' = rowExpr env.params row l) ∧
          ∀ row, rowExpr env.params row r' = rowExpr env.params row r := by
      rcases h5 with ⟨S, E, f1, f2⟩ | ⟨q, q1, q2, q3, q4, q5⟩
      · obtain ⟨q, q1, q2⟩ := term_rows (P := env.params) (S := S) (E := E) hD hp
        refine ⟨q, q1, fun l' x r' y e1 e2 => ?_⟩
        obtain ⟨a1, a2, _, a3, a4⟩ := q2 h3 f1 e1
        obtain ⟨b1, b2, _, b3, b4⟩ := q2 h4 f2 e2
        exact ⟨a1, b1, a2, b2, a3, b3, a4, b4⟩
      · refine ⟨q, q1, fun l' x r' y e1 e2 => ?_⟩
        obtain ⟨a1, a2, a3, a4⟩ := term_again hD hp h3 q2 q4 e1
        obtain ⟨b1, b2, b3, b4⟩ := term_again hD hp h4 q3 q5 e2
        exact ⟨a1, b1, a2, b2, a3, b3, a4, b4⟩
    obtain ⟨q, q1, q2⟩ := hb
    intro a ha
    obtain ⟨⟨l', x⟩, e1, ha⟩ := bind_eq_ok.1 ha
    obtain ⟨⟨r', y⟩, e2, ha⟩ := bind_eq_ok.1 ha
    obtain ⟨k1, k2, k3, k4, k5, k6, k7, k8⟩ := q2 _ _ _ _ e1 e2
    refine post_bind (atomRob_in hp hs h1.1 k3.samples k4.samples fun x hx => ?_) (fun z hz => ?_) a ha
    · rw [k7, k8]; exact h2 _ (q1 x hx)
    · refine post_bind (front_in hz) fun p hq => post_ok ⟨⟨⟨hz, h1.2⟩, fun row hr => ?_, k5, k6, Or.inr ⟨q, q1, k1, k2, k3, k4⟩⟩, hq⟩
      rw [k7, k8]; exact h2 row hr
  | not s c ih =>
    rintro ⟨h1, h2⟩
    simp only [Tr.computeRob]
    refine post_bind (ih h2) fun c' hc => ?_
    have hz := sin_not hV hc.1.st.1
    exact post_bind (front_in hz) fun p hq => post_ok ⟨⟨⟨hz, h1.2⟩, hc.1⟩, hq⟩
  | and s l r ih1 ih2 =>
    rintro ⟨h1, h2, h3⟩
    simp only [Tr.computeRob]
    refine post_bind (ih1 h2) fun l' hl => post_bind (ih2 h3) fun r' hr => ?_
    refine post_bind (Q := SIn V) (computeAndM_in hl.1.st.1 hr.1.st.1) fun z hz => ?_
    exact post_bind (front_in hz) fun p hq => post_ok ⟨⟨⟨hz, h1.2⟩, hl.1, hr.1⟩, hq⟩
  | or s l r ih1 ih2 =>
    rintro ⟨h1, h2, h3⟩
    simp only [Tr.computeRob]
    refine post_bind (ih1 h2) fun l' hl => post_bind (ih2 h3) fun r' hr => ?_
    refine post_bind (Q := SIn V) (computeOrM_in hl.1.st.1 hr.1.st.1) fun z hz => ?_
    exact post_bind (front_in hz) fun p hq => post_ok ⟨⟨⟨hz, h1.2⟩, hl.1, hr.1⟩, hq⟩
  | implies s l r ih1 ih2 =>
    rintro ⟨h1, h2, h3⟩
    simp only [Tr.computeRob]
    refine post_bind (ih1 h2) fun l' hl => post_bind (ih2 h3) fun r' hr => ?_
    refine post_bind (Q := SIn V) (computeOrM_in (sin_not hV hl.1.st.1) hr.1.st.1) fun z hz => ?_
    exact post_bind (front_in hz) fun p hq => post_ok ⟨⟨⟨hz, h1.2⟩, hl.1, hr.1⟩, hq⟩
  | ev s I c ih =>
    rintro ⟨h1, h2⟩
    simp only [Tr.computeRob]
    refine post_bind (ih h2) fun c' hc => ?_
    have he : ∀ a b, Post (fun r => SIn V r.1 ∧ SIn V r.2) (Tr.evRob env.B s a b c'.1.st.z) := by
      intro a b
      unfold Tr.evRob
      refine post_bind (timedEv_in hV hc.1.st.1 _ _ _) fun z hz => ?_
      refine post_bind (resize_in hV hc.1.st.1 _ _ hV.zero) fun zc hzc => ?_
      exact post_bind (resize_in hV hz _ _ hV.zero) fun z' hz' => post_ok ⟨hz', hzc⟩
    refine post_bind (he _ _) fun z hz => ?_
    exact post_bind (front_in hz.1) fun p hq => post_ok ⟨⟨⟨hz.1, h1.2⟩, tin_setSt hc.1 ⟨hz.2, hc.1.st.2⟩⟩, hq⟩
  | alw s I c ih =>
    rintro ⟨h1, h2⟩
    simp only [Tr.computeRob]
    refine post_bind (ih h2) fun c' hc => ?_
    refine post_bind (Q := SIn V) ?_ fun z hz =>
      post_bind (front_in hz) fun p hq => post_ok ⟨⟨⟨hz, h1.2⟩, hc.1⟩, hq⟩
    unfold Tr.alwRob
    exact post_bind (timedGlob_in hV hc.1.st.1 _ _ _) fun z hz => resize_in hV hz _ _ hV.zero
  | untl s l I r ih1 ih2 =>
    rintro ⟨h1, h2, h3⟩
    simp only [Tr.computeRob]
    refine post_bind (ih1 h2) fun l' hl => post_bind (ih2 h3) fun r' hr => ?_
    refine post_bind (Q := SIn V) ?_ fun z hz =>
      post_bind (front_in hz) fun p hq => post_ok ⟨⟨⟨hz, h1.2⟩, hl.1, hr.1⟩, hq⟩
    unfold Tr.untilRob
    exact post_bind (timedUntil_in hV hl.1.st.1 hr.1.st.1 _ _ _) fun z hz => resize_in hV hz _ _ hV.zero
  | _ => intro h; exact h.elim

theorem appendIfEmpty_in {ip : Interpol} (hp : ip = .PREVIOUS) {z : Signal} (hz : SIn V z) (t : ℚ) {c : ℚ} (hc : V c) :
    Post (SIn V) (Tr.appendIfEmpty ip z t c) := by
  unfold Tr.appendIfEmpty appendSample0
  rw [hp]
  exact post_ite (fun _ => append_in hz _ _ hc) fun _ => post_ok hz

theorem append0_in {ip : Interpol} (hp : ip = .PREVIOUS) {z : Signal} (hz : SIn V z) (t : ℚ) {c : ℚ} (hc : V c) :
    Post (SIn V) (appendSample0 ip z t c) := by
  unfold appendSample0
  rw [hp]
  exact append_in hz _ _ hc

theorem low_up_in (hV : Vals env.B V) (hD : WellShaped n env.data) (hp : env.ip = .PREVIOUS)
    (hs : env.sem = .SPACE) : ∀ {T : Tr}, TIn V n env.data env.params T →
      Post (Good V n env) (T.computeLow env) ∧ Post (Good V n env) (T.computeUp env) := by
  have two : ∀ {z : Signal} {s t : ℚ} {v c : ℚ}, SIn V z → V v → V c → Post (SIn V)
      (resize z s t v >>= fun z => Tr.appendIfEmpty env.ip z s c) := fun hz hv hc =>
    post_bind (resize_in hV hz _ _ hv) fun z' hz' => appendIfEmpty_in hp hz' _ hc
  have tmp : ∀ {z : Signal} {s t c : ℚ}, SIn V z → V c → Post (fun r : Signal × ℚ => SIn V r.1 ∧ V r.2)
      (resize z s t 0 >>= fun z => Tr.appendIfEmpty env.ip z s c >>= fun z => z.front >>= fun p =>
        Except.ok (z, p.value)) := fun hz hc =>
    post_bind (resize_in hV hz _ _ hV.zero) fun z' hz' => post_bind (appendIfEmpty_in hp hz' _ hc) fun z'' h'' =>
      post_bind (front_in h'') fun p hq => post_ok ⟨h'', hq⟩
  intro T
  induction T with
  | atom s k l r =>
    intro h
    constructor
    · simp only [Tr.computeLow]
      refine post_bind (rob_in hV hD hp hs h) fun T' hT => ?_
      refine post_bind (Q := SIn V) ?_ fun z hz =>
        post_bind (front_in hz) fun p hq => post_ok ⟨tin_setSt hT.1 ⟨hT.1.st.1, hz, hT.1.st.2.2⟩, hq⟩
      unfold Tr.defaultLow
      exact post_ite (fun _ => append0_in hp hT.1.st.2.1 _ hV.negB) fun _ => post_ok hT.1.st.1
    · simp only [Tr.computeUp]
      refine post_bind (rob_in hV hD hp hs h) fun T' hT => ?_
      refine post_bind (Q := SIn V) ?_ fun z hz =>
        post_bind (front_in hz) fun p hq => post_ok ⟨tin_setSt hT.1 ⟨hT.1.st.1, hT.1.st.2.1, hz⟩, hq⟩
      unfold Tr.defaultUp
      exact post_ite (fun _ => append0_in hp hT.1.st.2.2 _ hV.negB) fun _ => post_ok hT.1.st.1
  | not s c ih =>
    rintro ⟨h1, h2⟩
    constructor
    · simp only [Tr.computeLow]
      refine post_bind (ih h2).2 fun c' hc => ?_
      refine post_ite (fun _ => ?_) fun _ => ?_
      · exact post_bind (append0_in hp h1.2.1 _ hV.negB) fun z hz => post_ok ⟨⟨⟨h1.1, hz, h1.2.2⟩, hc.1⟩, hV.negB⟩
      · have hz := sin_not hV hc.1.st.2.2
        exact post_bind (front_in hz) fun p hq => post_ok ⟨⟨⟨h1.1, hz, h1.2.2⟩, hc.1⟩, hq⟩
    · simp only [Tr.computeUp]
      refine post_bind (ih h2).1 fun c' hc => ?_
      refine post_ite (fun _ => ?_) fun _ => ?_
      · exact post_bind (append0_in hp h1.2.2 _ hV.big) fun z hz => post_ok ⟨⟨⟨h1.1, h1.2.1, hz⟩, hc.1⟩, hV.big⟩
      · have hz := sin_not hV hc.1.st.2.1
        exact post_bind (front_in hz) fun p hq => post_ok ⟨⟨⟨h1.1, h1.2.1, hz⟩, hc.1⟩, hq⟩
  | and s l r ih1 ih2 =>
    rintro ⟨h1, h2, h3⟩
    constructor
    · simp only [Tr.computeLow]
      refine post_bind (ih1 h2).1 fun l' hl => post_bind (ih2 h3).1 fun r' hr => ?_
      refine post_bind (Q := SIn V) ?_ fun z hz =>
        post_bind (front_in hz) fun p hq => post_ok ⟨⟨⟨h1.1, hz, h1.2.2⟩, hl.1, hr.1⟩, hq⟩
      unfold Tr.andLow
      exact post_bind (computeAndM_in hl.1.st.2.1 hr.1.st.2.1) fun z hz => two hz hV.negB hV.negB
    · simp only [Tr.computeUp]
      refine post_bind (ih1 h2).2 fun l' hl => post_bind (ih2 h3).2 fun r' hr => ?_
      refine post_bind (Q := SIn V) ?_ fun z hz =>
        post_bind (front_in hz) fun p hq => post_ok ⟨⟨⟨h1.1, h1.2.1, hz⟩, hl.1, hr.1⟩, hq⟩
      unfold Tr.andUp
      exact post_bind (computeAndM_in hl.1.st.2.2 hr.1.st.2.2) fun z hz => two hz hV.big hV.big
  | or s l r ih1 ih2 =>
    rintro ⟨h1, h2, h3⟩
    constructor
    · simp only [Tr.computeLow]
      refine post_bind (ih1 h2).1 fun l' hl => post_bind (ih2 h3).1 fun r' hr => ?_
      refine post_bind (Q := SIn V) ?_ fun z hz =>
        post_bind (front_in hz) fun p hq => post_ok ⟨⟨⟨h1.1, hz, h1.2.2⟩, hl.1, hr.1⟩, hq⟩
      unfold Tr.orLow
      exact post_bind (computeOrM_in hl.1.st.2.1 hr.1.st.2.1) fun z hz => two hz hV.negB hV.negB
    · simp only [Tr.computeUp]
      refine post_bind (ih1 h2).2 fun l' hl => post_bind (ih2 h3).2 fun r' hr => ?_
      refine post_bind (Q := SIn V) ?_ fun z hz =>
        post_bind (front_in hz) fun p hq => post_ok ⟨⟨⟨h1.1, h1.2.1, hz⟩, hl.1, hr.1⟩, hq⟩
      unfold Tr.orUp
      exact post_bind (computeOrM_in hl.1.st.2.2 hr.1.st.2.2) fun z hz => two hz hV.big hV.big
  | implies s l r ih1 ih2 =>
    rintro ⟨h1, h2, h3⟩
    constructor
    · simp only [Tr.computeLow]
      refine post_bind (ih1 h2).2 fun l' hl => post_bind (ih2 h3).1 fun r' hr => ?_
      refine post_bind (Q := SIn V) ?_ fun z hz =>
        post_bind (front_in hz) fun p hq => post_ok ⟨⟨⟨h1.1, hz, h1.2.2⟩, hl.1, hr.1⟩, hq⟩
      unfold Tr.impliesLow
      exact post_bind (computeOrM_in (sin_not hV hl.1.st.2.2) hr.1.st.2.1) fun z hz => two hz hV.negB hV.negB
    · simp only [Tr.computeUp]
      refine post_bind (ih1 h2).1 fun l' hl => post_bind (ih2 h3).2 fun r' hr => ?_
      refine post_bind (Q := SIn V) ?_ fun z hz =>
        post_bind (front_in hz) fun p hq => post_ok ⟨⟨⟨h1.1, h1.2.1, hz⟩, hl.1, hr.1⟩, hq⟩
      unfold Tr.impliesUp
      exact post_bind (computeOrM_in (sin_not hV hl.1.st.2.1) hr.1.st.2.2) fun z hz => two hz hV.big hV.big
  | ev s I c ih =>
    rintro ⟨h1, h2⟩
    constructor
    · simp only [Tr.computeLow]
      refine post_bind (ih h2).1 fun c' hc => ?_
      refine post_bind (Q := fun r : Signal × ℚ => SIn V r.1 ∧ V r.2) ?_ fun z hz =>
        post_ok ⟨⟨⟨h1.1, hz.1, h1.2.2⟩, hc.1⟩, hz.2⟩
      unfold Tr.evLow
      exact post_ite (fun _ => post_bind (append0_in hp h1.2.1 _ hV.negB) fun z hz => post_ok ⟨hz, hV.negB⟩)
        fun _ => post_bind (timedEv_in hV hc.1.st.2.1 _ _ _) fun z hz => tmp hz hV.negB
    · simp only [Tr.computeUp]
      refine post_bind (ih h2).2 fun c' hc => ?_
      refine post_bind (Q := fun r : Signal × ℚ => SIn V r.1 ∧ V r.2) ?_ fun z hz =>
        post_ok ⟨⟨⟨h1.1, h1.2.1, hz.1⟩, hc.1⟩, hz.2⟩
      unfold Tr.evUp
      exact post_ite (fun _ => post_bind (append0_in hp h1.2.2 _ hV.big) fun z hz => post_ok ⟨hz, hV.big⟩)
        fun _ => post_bind (timedEv_in hV hc.1.st.2.2 _ _ _) fun z hz => tmp hz hV.big
  | alw s I c ih =>
    rintro ⟨h1, h2⟩
    constructor
    · simp only [Tr.computeLow]
      refine post_bind (ih h2).1 fun c' hc => ?_
      refine post_bind (Q := fun r : Signal × ℚ => SIn V r.1 ∧ V r.2) ?_ fun z hz =>
        post_ok ⟨⟨⟨h1.1, hz.1, h1.2.2⟩, hc.1⟩, hz.2⟩
      unfold Tr.alwLow
      exact post_ite (fun _ => post_bind (append0_in hp h1.2.1 _ hV.negB) fun z hz => post_ok ⟨hz, hV.negB⟩)
        fun _ => post_bind (timedGlob_in hV hc.1.st.2.1 _ _ _) fun z hz => tmp hz hV.negB
    · simp only [Tr.computeUp]
      refine post_bind (ih h2).2 fun c' hc => ?_
      refine post_bind (Q := fun r : Signal × ℚ => SIn V r.1 ∧ V r.2) ?_ fun z hz =>
        post_ok ⟨⟨⟨h1.1, h1.2.1, hz.1⟩, hc.1⟩, hz.2⟩
      unfold Tr.alwUp
      exact post_ite (fun _ => post_bind (append0_in hp h1.2.2 _ hV.big) fun z hz => post_ok ⟨hz, hV.big⟩)
        fun _ => post_bind (timedGlob_in hV hc.1.st.2.2 _ _ _) fun z hz => tmp hz hV.big
  | untl s l I r ih1 ih2 =>
    rintro ⟨h1, h2, h3⟩
    constructor
    · simp only [Tr.computeLow]
      refine post_bind (ih1 h2).1 fun l' hl => ?_
      refine post_ite (fun _ => post_ok ⟨⟨h1, hl.1, h3⟩, hV.negB⟩) fun _ => post_bind (ih2 h3).1 fun r' hr => ?_
      refine post_ite (fun _ => post_ok ⟨⟨h1, hl.1, hr.1⟩, hV.negB⟩) fun _ => ?_
      refine post_bind (Q := fun r : Signal × ℚ => SIn V r.1 ∧ V r.2) ?_ fun z hz =>
        post_ok ⟨⟨⟨h1.1, hz.1, h1.2.2⟩, hl.1, hr.1⟩, hz.2⟩
      unfold Tr.untilLow
      refine post_bind (timedUntil_in hV hl.1.st.2.1 hr.1.st.2.1 _ _ _) fun z hz =>
        post_bind (resize_in hV hz _ _ hV.zero) fun z' hz' => ?_
      split
      · exact post_ok ⟨hz', hV.negB⟩
      · rename_i p rs e
        exact post_ok ⟨hz', (hz' p (by simp [e])).1⟩
    · simp only [Tr.computeUp]
      refine post_bind (ih1 h2).2 fun l' hl => ?_
      refine post_ite (fun _ => post_ok ⟨⟨h1, hl.1, h3⟩, hV.big⟩) fun _ => post_bind (ih2 h3).2 fun r' hr => ?_
      refine post_ite (fun _ => post_ok ⟨⟨h1, hl.1, hr.1⟩, hV.big⟩) fun _ => ?_
      refine post_bind (Q := fun r : Signal × ℚ => SIn V r.1 ∧ V r.2) ?_ fun z hz =>
        post_ok ⟨⟨⟨h1.1, h1.2.1, hz.1⟩, hl.1, hr.1⟩, hz.2⟩
      unfold Tr.untilUp
      refine post_bind (timedUntil_in hV hl.1.st.2.2 hr.1.st.2.2 _ _ _) fun z hz =>
        post_bind (resize_in hV hz _ _ hV.zero) fun z' hz' => ?_
      split
      · exact post_ok ⟨hz', hV.big⟩
      · rename_i p rs e
        exact post_ok ⟨hz', (hz' p (by simp [e])).1⟩
  | _ => intro h; exact h.elim

theorem run3_in (hV : Vals env.B V) (hD : WellShaped n env.data) (hp : env.ip = .PREVIOUS)
    (hs : env.sem = .SPACE) {T : Tr} (h : TIn V n env.data env.params T) :
    Post (fun r => TIn V n env.data env.params r.1 ∧ V r.2.1 ∧ V r.2.2.1 ∧ V r.2.2.2) (Monitor.run3 env T) := by
  unfold Monitor.run3
  refine post_bind (rob_in hV hD hp hs h) fun r1 h1 => ?_
  refine post_bind (low_up_in hV hD hp hs h1.1).1 fun r2 h2 => ?_
  exact post_bind (low_up_in hV hD hp hs h2.1).2 fun r3 h3 => post_ok ⟨h3.1, h1.2, h2.2, h3.2⟩

theorem vals_selected (B : ℚ) (D : List (List ℚ)) (T : Tr) : Vals B (Selected B D P T) := by
  refine ⟨Or.inr (Or.inl rfl), Or.inl rfl, fun x h => ?_⟩
  unfold Selected at h ⊢
  rw [neg_neg]
  rcases h with rfl | rfl | rfl | h | h
  · exact Or.inl neg_zero
  · exact Or.inr (Or.inr (Or.inl rfl))
  · exact Or.inr (Or.inl (neg_neg B))
  · exact Or.inr (Or.inr (Or.inr (Or.inr h)))
  · exact Or.inr (Or.inr (Or.inr (Or.inl h)))

theorem freshSt_in {s : St} {S E : ℚ} (h : FreshSt S E s) : StIn V s := by
  obtain ⟨-, -, h1, h2, h3⟩ := h
  refine ⟨?_, ?_, ?_⟩ <;> intro p hp <;> simp_all [Signal.empty]

/-- A formula that is ready for a run has the invariant. -/
theorem tin_fresh {D : List (List ℚ)} : ∀ {T : Tr} {S E : ℚ}, Fresh P S E T → Declared n T →
    (∀ x, MarginOf D P T x → V x) → TIn V n D P T := by
  intro T
  induction T with
  | atom s k l r =>
    intro S E hf hd hm
    exact ⟨freshSt_in hf.1, fun row hr => hm _ ⟨row, hr, rfl⟩, hd.1, hd.2, Or.inl ⟨S, E, hf.2.1, hf.2.2⟩⟩
  | not s c ih => intro S E hf hd hm; exact ⟨freshSt_in hf.1, ih hf.2 hd hm⟩
  | ev s I c ih => intro S E hf hd hm; exact ⟨freshSt_in hf.1, ih hf.2 hd hm⟩
  | alw s I c ih => intro S E hf hd hm; exact ⟨freshSt_in hf.1, ih hf.2 hd hm⟩
  | and s l r ih1 ih2 | or s l r ih1 ih2 | implies s l r ih1 ih2 =>
    intro S E hf hd hm
    exact ⟨freshSt_in hf.1, ih1 hf.2.1 hd.1 fun x hx => hm x (Or.inl hx), ih2 hf.2.2 hd.2 fun x hx => hm x (Or.inr hx)⟩
  | untl s l I r ih1 ih2 =>
    intro S E hf hd hm
    exact ⟨freshSt_in hf.1, ih1 hf.2.1 hd.1 fun x hx => hm x (Or.inl hx), ih2 hf.2.2 hd.2 fun x hx => hm x (Or.inr hx)⟩
  | _ => intro S E hf hd; exact hd.elim

theorem rowExpr_prepare (h0 : P.lookup "" = none) (row : List ℚ) : ∀ (T : Tr) (s e : ℚ),
    rowExpr P row (Monitor.prepare P s e T) = rowExpr P row T := by
  unfold Monitor.prepare
  intro T
  induction T with
  | const _ p v _ =>
    intro s e
    simp only [Tr.setHorizon, Tr.reset, Tr.setTraceData, Tr.setParamMap, rowExpr, number, Tr.resolve]
    split_ifs with hp
    · subst hp; rw [h0]
    · rfl
  | abs _ c ih => intro s e; simp only [Tr.setHorizon, Tr.reset, Tr.setTraceData, Tr.setParamMap, rowExpr, ih]
  | plus _ l r h1 h2 | minus _ l r h1 h2 | mult _ l r h1 h2 =>
    intro s e; simp only [Tr.setHorizon, Tr.reset, Tr.setTraceData, Tr.setParamMap, rowExpr, h1, h2]
  | _ => intro s e; rfl

theorem marginOf_prepare (h0 : P.lookup "" = none) (D : List (List ℚ)) : ∀ (T : Tr) (s e x : ℚ),
    MarginOf D P (Monitor.prepare P s e T) x ↔ MarginOf D P T x := by
  have hr := fun row => rowExpr_prepare h0 row
  unfold Monitor.prepare at hr ⊢
  intro T
  induction T with
  | atom _ k l r =>
    intro s e x
    simp only [Tr.setHorizon, Tr.reset, Tr.setTraceData, Tr.setParamMap, MarginOf, hr]
  | not _ c ih => intro s e x; exact ih s e x
  | ev _ _ c ih | alw _ _ c ih => intro s e x; exact ih _ _ x
  | and _ l r h1 h2 | or _ l r h1 h2 | implies _ l r h1 h2 | untl _ l _ r h1 h2 =>
    intro s e x; exact or_congr (h1 _ _ x) (h2 _ _ x)
  | _ => intro s e x; exact Iff.rfl

theorem declared_prepare : ∀ (T : Tr) (s e : ℚ), Declared n T → Declared n (Monitor.prepare P s e T) := by
  have hex := @isExpr_prepare n P
  unfold Monitor.prepare at hex ⊢
  intro T
  induction T with
  | atom => exact fun s e h => ⟨hex _ s e h.1, hex _ s e h.2⟩
  | not _ c ih => exact fun s e h => ih s e h
  | ev _ _ c ih | alw _ _ c ih => exact fun s e h => ih _ _ h
  | and _ l r h1 h2 | or _ l r h1 h2 | implies _ l r h1 h2 | untl _ l _ r h1 h2 => exact fun s e h => ⟨h1 _ _ h.1, h2 _ _ h.2⟩
  | _ => exact fun _ _ h => h.elim

end
end STLRom
