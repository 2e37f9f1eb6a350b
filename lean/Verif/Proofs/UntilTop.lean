import Verif.Proofs.UntilLate
import Verif.Proofs.UntilRun
import Verif.Spec.Top

/-!
# `until` over formulas without `until`
-/

namespace STLRom
open Signal Spec

/-- `v` is the value of `X until Y` at `s`, the witnesses between `lo` and `e`. -/
def IsW (X Y : ℚ → ℚ) (s lo e v : ℚ) : Prop :=
  (∃ u, lo ≤ u ∧ u ≤ e ∧ v ≤ Y u ∧ ∀ w, s ≤ w → w ≤ u → v ≤ X w) ∧
  ∀ u v', lo ≤ u → u ≤ e → v' ≤ Y u → (∀ w, s ≤ w → w ≤ u → v' ≤ X w) → v' ≤ v

theorem IsW.sup {X Y : ℚ → ℚ} {s lo e v : ℚ} {f g : ℚ → EReal} (h : IsW X Y s lo e v)
    (hf : ∀ t, s ≤ t → t ≤ e → f t = er (X t)) (hg : ∀ t, lo ≤ t → t ≤ e → g t = er (Y t)) :
    ⨆ u ∈ Set.Icc lo e, g u ⊓ ⨅ w ∈ Set.Icc s u, f w = er v := by
  refine le_antisymm (iSup₂_le fun u hu => ?_) ?_
  · by_contra hcon
    obtain ⟨q, h1, h2⟩ := EReal.lt_iff_exists_rat_btwn.1 (not_le.1 hcon)
    have h1' : v < q := by
      unfold er at h1
      exact_mod_cast h1
    have h2' : er q < g u ⊓ ⨅ w ∈ Set.Icc s u, f w := by unfold er; exact_mod_cast h2
    obtain ⟨h3, h4⟩ := lt_inf_iff.1 h2'
    refine absurd (h.2 u q hu.1 hu.2 ?_ ?_) (not_le.2 h1')
    · rw [hg u hu.1 hu.2] at h3
      exact er_le.1 h3.le
    · intro w a b
      have := h4.le.trans (iInf₂_le w ⟨a, b⟩)
      rw [hf w a (b.trans hu.2)] at this
      exact er_le.1 this
  · obtain ⟨u, h1, h2, h3, h4⟩ := h.1
    refine le_iSup₂_of_le u ⟨h1, h2⟩ (le_inf ?_ (le_iInf₂ fun w hw => ?_))
    · rw [hg _ h1 h2, er_le]; exact h3
    · rw [hf _ hw.1 (hw.2.trans h2), er_le]; exact h4 w hw.1 hw.2

theorem IsU.front {X Y : ℚ → ℚ} {s lo e v I : ℚ} (h : IsU X Y lo e v) (hs : s ≤ lo)
    (hI : ∃ w, s ≤ w ∧ w ≤ lo ∧ X w = I) (hI' : ∀ w, s ≤ w → w ≤ lo → I ≤ X w) : IsW X Y s lo e (min I v) := by
  obtain ⟨⟨u, h1, h2, h3, h4⟩, h5⟩ := h
  refine ⟨⟨u, h1, h2, (min_le_right _ _).trans h3, fun w a b => ?_⟩, fun u' v' a b c d => le_min ?_ ?_⟩
  · rcases le_total w lo with h | h
    · exact (min_le_left _ _).trans (hI' w a h)
    · exact (min_le_right _ _).trans (h4 w h b)
  · obtain ⟨w, k1, k2, rfl⟩ := hI
    exact d w k1 (k2.trans a)
  · exact h5 u' v' a b c fun w p q => d w (hs.trans p) q

/-- An infimum over one-sided points of a continuous signal. -/
theorem Node.bot {B : ℚ} {x : Signal} {s e t I : ℚ} (hx : Node B x s e) (hte : t ≤ e)
    (h : Bot x.v (pl s) (pl t) I) :
    (∃ w, s ≤ w ∧ w ≤ t ∧ x.v (pl w) = I) ∧ ∀ w, s ≤ w → w ≤ t → I ≤ x.v (pl w) := by
  refine ⟨?_, fun w a b => h.2 (pl w) (by simpa using a) (by simpa using b)⟩
  obtain ⟨ρ, a, b, c⟩ := h.1
  rcases Pt.cases ρ with d | d
  · rw [d] at a b c
    exact ⟨ρ.time, by simpa using a, by simpa using b, c⟩
  · rw [d] at a b c
    rw [pl_le_mi] at a
    rw [le_pl_iff, mi_time] at b
    refine ⟨ρ.time, a.le, b, ?_⟩
    rw [← hx.cg.cts _ (by rw [hx.b]; exact a) (by rw [hx.e]; exact b.trans hte)]
    exact c

/-- `compute_timed_until` on continuous signals, at its first sample. -/
theorem timedUntil_front {B s a b d : ℚ} {old x y : Signal} {f g : ℚ → EReal} (h0 : 0 ≤ s) (ha : 0 ≤ a) (hab : a < b)
    (hd : s + a < d) (hlate : b ≤ d → s + b ≤ d)
    (hx : Node B x s (min (s + b) d)) (hy : Node B y (s + a) (min (s + b) d))
    (fx : Is x s (min (s + b) d) f) (gy : Is y (s + a) (min (s + b) d) g) :
    ∃ z v, computeTimedUntil B old x y a b = .ok z ∧ z.endTime = min (s + b) d - a ∧ Fst z s v ∧
      ⨆ u ∈ Set.Icc (s + a) (min (s + b) d), g u ⊓ ⨅ w ∈ Set.Icc s u, f w = er v := by
  set e := min (s + b) d with he
  have hlt : s + a < e := lt_min (by linarith) hd
  have hmin : min x.endTime y.endTime = e := by rw [hx.e, hy.e, min_self]
  obtain ⟨u, U, u1, u2, u3, hU⟩ := computeUntil_front (B := B) hx.wf hy.wf hx.cg hy.cg
    (b := s + a) (e := e) (by rw [hx.b, hy.b]; exact max_eq_right (by linarith)) hmin hlt
    (fun t p q => (hx.bd t (by linarith) q).1) (fun t p q => (hy.bd t p q).1)
  -- the value, once the parts are known
  have fin : ∀ {I : ℚ}, (∃ w, s ≤ w ∧ w ≤ s + a ∧ x.v (pl w) = I) → (∀ w, s ≤ w → w ≤ s + a → I ≤ x.v (pl w)) →
      ⨆ u ∈ Set.Icc (s + a) e, g u ⊓ ⨅ w ∈ Set.Icc s u, f w = er (min I U) := fun h1 h2 =>
    (hU.front (by linarith) h1 h2).sup fx gy
  have hpt : ∀ {v}, a = 0 → v = min (x.v (pl s)) U →
      ⨆ u ∈ Set.Icc (s + a) e, g u ⊓ ⨅ w ∈ Set.Icc s u, f w = er v := by
    intro v ha0 hv
    rw [hv]
    refine fin ⟨s, le_rfl, by linarith, rfl⟩ fun w p q => ?_
    rw [show w = s by linarith]
  have tail : ∀ {w : Signal} {V : ℚ}, 0 < a → w.endTime = e → Fst w (s + a) V → V = U →
      ∃ z1 z v, computeBoundedGlobally B x a = .ok z1 ∧ computeAnd z1 (shift w (-a)) = .ok z ∧
        z.endTime = e - a ∧ Fst z s v ∧
        ⨆ u ∈ Set.Icc (s + a) e, g u ⊓ ⨅ w ∈ Set.Icc s u, f w = er v := by
    rintro w V ha0 hwe hw rfl
    obtain ⟨z1, k1, k2, k3, k4, k5⟩ := computeBoundedGlobally_first (B := B) (a := a) hx.wf (.inr hx.cg) ha0
      (by rw [hx.b, hx.e]; exact hlt.le)
      (fun σ h1 h2 => (hx.bdp (by rw [← hx.b]; exact h1) (by rw [← hx.e]; exact h2)).2)
    rw [hx.b] at k2 k5
    obtain ⟨c1, c2⟩ := hx.bot hlt.le k5
    have hz1 := FAt.of_wf0 k4.toWF0
    rw [k2] at hz1
    have hw' := hw.shift (-a)
    rw [add_neg_cancel_right] at hw'
    have hend : min z1.endTime (shift w (-a)).endTime = e - a := by
      simp only [shift, hwe, k3, hx.e, ← sub_eq_add_neg]
      exact min_eq_right (by linarith)
    obtain ⟨z, l1, l2, l3⟩ := computeAnd_front hz1 hw'.fAt (by rw [hend]; linarith)
    exact ⟨z1, z, _, k1, l1, l2.trans hend, l3, fin c1 c2⟩
  unfold computeTimedUntil
  rw [if_neg (by simp [hx.wf.ne, hy.wf.ne]), hmin]
  by_cases hbe : e < b
  · rw [if_pos hbe]
    by_cases ha0 : a = 0
    · rw [if_pos ha0]
      refine ⟨u, U, u1, by rw [u2, ha0, sub_zero], by rw [ha0, add_zero] at u3; exact u3, hpt ha0 ?_⟩
      obtain ⟨t, c1, _, _, c4⟩ := hU.1
      exact (min_eq_right (c4 s (by linarith) (by linarith))).symm
    · have ha' : 0 < a := lt_of_le_of_ne ha (Ne.symm ha0)
      rw [if_neg ha0, if_neg (by rw [hx.e, not_lt]; linarith)]
      obtain ⟨z1, z, v, k1, k2, k3, k4, k5⟩ := tail ha' u2 u3 rfl
      exact ⟨z, v, by simp only [k1, u1, bind, Except.bind, k2], k3, k4, k5⟩
  · rw [if_neg hbe]
    have hbe' := not_lt.1 hbe
    have hsb : s + b ≤ e := le_min le_rfl (hlate (hbe'.trans (min_le_right _ _)))
    have heq : e = s + b := le_antisymm (min_le_left _ _) hsb
    obtain ⟨z2, v1, v2, v3, v4, v5⟩ := computeBoundedEventually_first (B := B) hy.wf (.inr hy.cg)
      (a := b - a) (by linarith) (by rw [hy.b, hy.e]; linarith)
      (fun σ h1 h2 => (hy.bdp (by rw [← hy.b]; exact h1) (by rw [← hy.e]; exact h2)).1)
    rw [hy.b] at v2 v5
    have hz2 := FAt.of_wf0 v4.toWF0
    rw [v2] at hz2
    have hmn : min z2.endTime u.endTime = e := by rw [v3, u2, hy.e, min_self]
    obtain ⟨w, w1, w2, w3⟩ := computeAnd_front hz2 u3.fAt (by rw [hmn]; exact hlt)
    rw [hmn] at w2
    have hle : U ≤ z2.v (pl (s + a)) := by
      obtain ⟨t, c1, c2, c3, _⟩ := hU.1
      exact c3.trans (v5.2 (pl t) (by simpa using c1) (by rw [pl_le_pl]; linarith))
    rw [min_eq_right hle] at w3
    unfold computeTimedUntilF
    by_cases ha0 : 0 < a
    · obtain ⟨z1, z, v, k1, k2, k3, k4, k5⟩ := tail ha0 w2 w3 rfl
      exact ⟨z, v, by simp only [v1, u1, w1, if_pos ha0, k1, bind, Except.bind, k2], k3, k4, k5⟩
    · have ha' : a = 0 := le_antisymm (not_lt.1 ha0) ha
      have hx0 := FAt.of_wf0 hx.wf
      rw [hx.b] at hx0
      rw [ha', add_zero] at w3
      have hmn : min x.endTime w.endTime = e := by rw [w2, hx.e, min_self]
      obtain ⟨z, l1, l2, l3⟩ := computeAnd_front hx0 w3.fAt (by rw [hmn]; linarith)
      exact ⟨z, _, by simp only [v1, u1, w1, if_neg ha0, l1, bind, Except.bind], by rw [l2, hmn, ha', sub_zero],
        l3, hpt ha' rfl⟩

theorem Fst.resize_pt {z : Signal} {b v : ℚ} (hz : Fst z b v) (c : ℚ) (h : b ≤ z.endTime) :
    ∃ d, Signal.resize z b b c = .ok ⟨[⟨b, v, d⟩], b, b⟩ := by
  obtain ⟨h1, p, r, h2, h3, h4, h5⟩ := hz
  have htol : (0 : ℚ) < tol := by norm_num [tol]
  have hp : p = ⟨b, v, p.derivative⟩ := by cases p; simp_all
  have hf : resizeFront z b = .ok ⟨p :: r, b, z.endTime⟩ := by
    unfold resizeFront
    rw [if_neg (by rw [h1]; exact lt_irrefl _), h2,
      show trimFront b Sample.zero (p :: r) = (Sample.zero, p :: r) by simp [trimFront, h3]]
    simp only [h3, lt_irrefl, if_false, h1]
  obtain ⟨r', k1, k2⟩ := Signal.trimBack_head (l := r) (p := p) (t := b) h3.le
  have hr : r' = [] := by
    have : ∀ l : List Sample, (∀ q ∈ l, b < q.time) → trimBack b (p :: l) = [p] := by
      intro l
      induction l using List.reverseRecOn with
      | nil => intro _; simp [trimBack, h3]
      | append_singleton l q ih =>
        intro h
        have e := h q (by simp)
        have := ih fun q hq => h q (by simp [hq])
        unfold trimBack at this ⊢
        simp only [List.reverse_cons, List.reverse_append, List.reverse_nil, List.nil_append, List.cons_append]
        rw [List.dropWhile_cons_of_pos (by simpa using e)]
        simpa using this
    rw [this r h5] at k1
    exact (List.cons.inj k1).2.symm
  subst hr
  refine ⟨p.derivative, ?_⟩
  unfold Signal.resize
  rw [if_neg (by linarith), hf]
  simp only [bind, Except.bind, resizeBack, lt_irrefl, if_false]
  rw [if_neg (not_lt.2 h), k1, ← hp]
  simp

theorem Fst.resize_zero {z : Signal} {b v : ℚ} (hz : Fst z b v) {s : ℚ} (c : ℚ) (h1 : s ≤ b) (h : b ≤ z.endTime) :
    ∃ z' p, Signal.resize z s z.endTime c = .ok z' ∧ z'.front = .ok p ∧ p.value = v ∧ (s = b → Lead z' b v) := by
  obtain ⟨g1, p, r, h2, h3, h4, h5⟩ := hz
  have htol : (0 : ℚ) < tol := by norm_num [tol]
  have hf : ∃ q r', resizeFront z s = .ok ⟨q :: r', b, z.endTime⟩ ∧ q.time = s ∧ q.value = v ∧
      (s = b → ∀ q ∈ r', b < q.time) := by
    unfold resizeFront
    by_cases hs : s < z.beginTime
    · rw [if_pos hs, h2]
      refine ⟨⟨s, p.value, 0⟩, p :: r, by rw [g1], rfl, h4, fun e => ?_⟩
      rw [g1] at hs
      exact absurd e hs.ne
    · rw [if_neg hs, h2]
      have e : s = b := le_antisymm h1 (by rw [← g1]; exact not_lt.1 hs)
      rw [show trimFront s Sample.zero (p :: r) = (Sample.zero, p :: r) by simp [trimFront, h3, e]]
      simp only [h3, e, lt_irrefl, if_false]
      exact ⟨p, r, by rw [g1], h3, h4, fun _ => h5⟩
  obtain ⟨q, r', k1, k2, k3, k4⟩ := hf
  obtain ⟨r'', m1, m2⟩ := Signal.trimBack_head (l := r') (p := q) (t := z.endTime) (by rw [k2]; exact h1.trans h)
  refine ⟨⟨q :: r'', s, z.endTime⟩, q, ?_, rfl, k3, fun e => ?_⟩
  · unfold Signal.resize
    rw [if_neg (by linarith), k1]
    simp only [bind, Except.bind, resizeBack]
    rw [if_neg (not_lt.2 (h1.trans h)), if_neg (lt_irrefl _), m1]
    simp
  · exact Fst.lead (v := v) ⟨e, q, r'', rfl, by rw [k2, e], k3, fun x hx => k4 e x (m2 x hx)⟩ h

/-- Extending the signal of `until` back to 0. -/
theorem Fst.resize_led {z : Signal} {b v : ℚ} (hz : Fst z b v) (c : ℚ) (h1 : 0 ≤ b) (h : b < z.endTime) :
    ∃ z' p, Signal.resize z 0 z.endTime c = .ok z' ∧ z'.front = .ok p ∧ p.value = v ∧ Led z' b v := by
  rcases h1.eq_or_lt with rfl | h0
  · obtain ⟨z', p, k1, k2, k3, k4⟩ := hz.resize_zero (s := 0) c le_rfl h.le
    exact ⟨z', p, k1, k2, k3, .inl (k4 rfl)⟩
  · obtain ⟨g1, p, r, h2, h3, h4, h5⟩ := hz
    have htol : (0 : ℚ) < tol := by norm_num [tol]
    have hp : p = ⟨b, v, p.derivative⟩ := by cases p; simp_all
    have hf : resizeFront z 0 = .ok ⟨⟨0, v, 0⟩ :: p :: r, b, z.endTime⟩ := by
      unfold resizeFront
      rw [if_pos (by rw [g1]; exact h0), h2, g1]
      simp only [h4]
    obtain ⟨r1, m1, m2⟩ := Signal.trimBack_head (l := r) (p := p) (t := z.endTime) (by rw [h3]; exact h.le)
    have m3 : trimBack z.endTime (⟨0, v, 0⟩ :: p :: r) = ⟨0, v, 0⟩ :: p :: r1 := by
      unfold trimBack at m1 ⊢
      rw [List.reverse_cons, List.dropWhile_append, if_neg]
      · rw [List.reverse_append, m1]; rfl
      · intro h'
        rw [List.isEmpty_iff] at h'
        rw [h'] at m1
        simp at m1
    refine ⟨⟨⟨0, v, 0⟩ :: p :: r1, 0, z.endTime⟩, ⟨0, v, 0⟩, ?_, rfl, rfl, .inr ⟨h0, rfl, h, [p], r1, rfl,
      .inr ⟨p.derivative, by rw [← hp]⟩, fun q hq => h5 q (m2 q hq)⟩⟩
    unfold Signal.resize
    rw [if_neg (by linarith), hf]
    simp only [bind, Except.bind, resizeBack]
    rw [if_neg (not_lt.2 (h0.le.trans h.le)), if_neg (lt_irrefl _), m3]
    simp

theorem node_pt {B b v d : ℚ} (h1 : -B ≤ v) (h2 : v ≤ B) :
    Node B ⟨[⟨b, v, d⟩], b, b⟩ b b ∧ (⟨[⟨b, v, d⟩], b, b⟩ : Signal).v (pl b) = v := by
  have hP : Pieces (fun t => v + d * (t - b)) b [⟨b, v, d⟩] := by
    exact ⟨le_rfl, fun x _ _ => by simp [Sample.valueAt]⟩
  obtain ⟨n1, n2⟩ := node_of_pieces (S := b) (B := B) (by simp) hP (by simp) (by
    intro t a c
    obtain rfl := le_antisymm a c
    simpa using ⟨h1, h2⟩)
  exact ⟨n1, by have := er_inj (n2 b le_rfl le_rfl); simpa using this.symm⟩

theorem isTerm_forget : ∀ T : Tr, IsTerm (T.forgetB false) ↔ IsTerm T := by
  intro T
  induction T <;> simp_all [Tr.forgetB, IsTerm]

theorem isStl_forget : ∀ T : Tr, IsStl (T.forgetB false) ↔ IsStl T := by
  intro T
  induction T <;> simp_all [Tr.forgetB, IsStl, isTerm_forget]

theorem untilOutside_forget (n : ℕ) (P : Assoc ℚ) : ∀ T : Tr, UntilOutside n P (T.forgetB false) ↔ UntilOutside n P T := by
  intro T
  induction T with
  | untl s l I r => simp only [Tr.forgetB, UntilOutside, isFormula_forget]
  | not s c ih => simpa only [Tr.forgetB, UntilOutside] using ih
  | and s l r h1 h2 | or s l r h1 h2 | implies s l r h1 h2 => simp only [Tr.forgetB, UntilOutside, h1, h2]
  | _ => exact isFormula_forget n P _

theorem beginsInside_forget (ip : Interpol) (B : ℚ) (D : List (List ℚ)) (P : Assoc ℚ) (t : ℚ) :
    ∀ T : Tr, BeginsInside ip B D P t (T.forgetB false) ↔ BeginsInside ip B D P t T := by
  intro T
  induction T with
  | untl s l I r => simp only [Tr.forgetB, BeginsInside, rob_forget]
  | not s c ih => simpa only [Tr.forgetB, BeginsInside] using ih
  | and s l r h1 h2 | or s l r h1 h2 | implies s l r h1 h2 => simp only [Tr.forgetB, BeginsInside, h1, h2]
  | _ => simp only [Tr.forgetB, BeginsInside]

section
variable {env : Env} {n : ℕ}

/-- An `until` over until-free formulas after `compute_robustness` at one time. -/
def AfterTop (env : Env) (t : ℚ) : Tr → Prop
  | .untl s l I r => Spn t t s ∧ After env none t (t + bound env.params I.stopStr I.stop) l ∧
      After env none (t + bound env.params I.beginStr I.begin) (t + bound env.params I.stopStr I.stop) r
  | _ => False

/-- What the operands of `until` lead to. -/
theorem untl_front {s : St} {l r : Tr} {I : Ival} {t a b : ℚ} {x y : Signal}
    (hA : bound env.params I.beginStr I.begin = a) (hBd : bound env.params I.stopStr I.stop = b)
    (h0 : 0 ≤ t) (ha : 0 ≤ a) (hab : a < b)
    (hx : Node env.B x t (t + b)) (hy : Node env.B y (t + a) (t + b))
    (fx : Is x t (t + b) (rob .LINEAR env.data env.params l))
    (gy : Is y (t + a) (t + b) (rob .LINEAR env.data env.params r)) (old : Signal) :
    ∃ z v, computeTimedUntil env.B old x y a b = .ok z ∧ z.endTime = t + b - a ∧ Fst z t v ∧
      rob .LINEAR env.data env.params (.untl s l I r) t = er v ∧ -env.B ≤ v ∧ v ≤ env.B ∧ v ≤ x.v (pl t) := by
  obtain ⟨z, v, h1, h2, h3, h4⟩ := timedUntil_front (B := env.B) (old := old) (d := t + b) h0 ha hab
    (by linarith) (fun _ => le_rfl) (by rw [min_self]; exact hx) (by rw [min_self]; exact hy)
    (by rw [min_self]; exact fx) (by rw [min_self]; exact gy)
  rw [min_self] at h2 h4
  have hle : er v ≤ er (x.v (pl t)) := by
    rw [← h4]
    refine iSup₂_le fun u hu => inf_le_right.trans ((iInf₂_le t ⟨le_rfl, by linarith [hu.1]⟩).trans ?_)
    rw [fx t le_rfl (by linarith)]
  have hge : er (-env.B) ≤ er v := by
    rw [← h4]
    refine le_iSup₂_of_le (t + a) ⟨le_rfl, by linarith⟩ (le_inf ?_ (le_iInf₂ fun w hw => ?_))
    · rw [gy _ le_rfl (by linarith), er_le]; exact (hy.bd _ le_rfl (by linarith)).1
    · rw [fx _ hw.1 (hw.2.trans (by linarith)), er_le]; exact (hx.bd _ hw.1 (hw.2.trans (by linarith))).1
  refine ⟨z, v, h1, h2, h3, ?_, er_le.1 hge, (er_le.1 hle).trans (hx.bd t le_rfl (by linarith)).2, er_le.1 hle⟩
  simp only [rob, hA, hBd]
  exact h4

/-- `compute_robustness` of `until` over formulas without `until`. -/
theorem untl_rob (hL : Lin env n) (hsem : env.sem = .SPACE) {s : St} {l r : Tr} {I : Ival} {t a b : ℚ}
    (hA : bound env.params I.beginStr I.begin = a) (hBd : bound env.params I.stopStr I.stop = b)
    (h0 : 0 ≤ t) (ha : 0 ≤ a) (hab : a < b) (hFl : IsFormula n env.params l) (hFr : IsFormula n env.params r)
    (hc : Covers env.data t (t + reach env.params (.untl s l I r)))
    (hf : Fresh env.params t t (.untl s l I r)) (hk : AtomsOk env.data env.params t t (.untl s l I r))
    (hB : AtomsWithin .LINEAR env.B env.data env.params t t (.untl s l I r))
    (hn : NoLongSlope .LINEAR env.data env.params t t (.untl s l I r)) :
    ∃ T' v, Tr.computeRob env (.untl s l I r) = .ok (T', v) ∧
      rob .LINEAR env.data env.params (.untl s l I r) t = er v ∧ AfterTop env t T' ∧
      Led T'.st.z t v := by
  simp only [Fresh, AtomsOk, AtomsWithin, NoLongSlope, hA, hBd, reach] at hf hk hB hn hc
  obtain ⟨l', v1, a1, a2⟩ := rob_first hL hsem l h0 (by linarith)
    (covers_mono hc le_rfl (by rw [add_assoc]; gcongr; exact le_max_left _ _)) hFl hf.2.1 hk.1 hB.1 hn.1
  obtain ⟨r', v2, b1, b2⟩ := rob_first hL hsem r (S := t + a) (by linarith) (by linarith)
    (covers_mono hc (by linarith) (by rw [add_assoc]; gcongr; exact le_max_right _ _)) hFr hf.2.2 hk.2 hB.2 hn.2
  obtain ⟨z, v, c1, c2, c3, c4, _⟩ := untl_front (s := s) hA hBd h0 ha hab a2.node b2.node a2.is b2.is s.z
  obtain ⟨z', p, d1, d2, d3, d4⟩ := c3.resize_led 0 h0 (by rw [c2]; linarith)
  refine ⟨.untl { s with z := z' } l' I r', p.value, ?_, by rw [d3]; exact c4,
    ⟨⟨hf.1.1, hf.1.2.1⟩, ?_, ?_⟩, by rw [d3]; exact d4⟩
  · simp only [Tr.computeRob, a1, b1, bind, Except.bind, Tr.untilRob, ivA_eq, ivB_eq, hA, hBd, c1, d1, d2]
  · rw [hBd]; exact a2.after
  · rw [hBd, hA]; exact b2.after

/-- `compute_lower_rob` and `compute_upper_rob` of `until` over formulas without `until`. -/
theorem untl_lu (hL : Lin env n) (hsem : env.sem = .SPACE) (hne : env.data ≠ []) {s : St} {l r : Tr}
    {I : Ival} {t a b : ℚ}
    (hA : bound env.params I.beginStr I.begin = a) (hBd : bound env.params I.stopStr I.stop = b)
    (h0 : 0 ≤ t) (ha : 0 ≤ a) (hab : a < b) (hFl : IsFormula n env.params l) (hFr : IsFormula n env.params r)
    (hn : NoLongSlope .LINEAR env.data env.params t t (.untl s l I r))
    (hu : Untrimmed env.params t t (.untl s l I r)) (haf : AfterTop env t (.untl s l I r)) :
    ∃ v, rob .LINEAR env.data env.params (.untl s l I r) t = er v ∧
      (∃ T' w, Tr.computeLow env (.untl s l I r) = .ok (T', w) ∧
        (rob .LINEAR env.data env.params r (t + a) = er (-env.B) → w = -env.B) ∧
        (rob .LINEAR env.data env.params r (t + a) ≠ er (-env.B) → w = v ∧
          (rob .LINEAR env.data env.params l t ≠ er (-env.B) →
            Node env.B T'.st.zlow t t ∧ T'.st.zlow.v (pl t) = v))) ∧
      (∃ T' w, Tr.computeUp env (.untl s l I r) = .ok (T', w) ∧
        (rob .LINEAR env.data env.params l t = er env.B ∨
          rob .LINEAR env.data env.params r (t + a) = er env.B → w = env.B) ∧
        (¬ (rob .LINEAR env.data env.params l t = er env.B ∨
          rob .LINEAR env.data env.params r (t + a) = er env.B) → w = v ∧
            Node env.B T'.st.zup t t ∧ T'.st.zup.v (pl t) = v)) := by
  simp only [NoLongSlope, Untrimmed, AfterTop, hA, hBd] at hn hu haf
  obtain ⟨hs, hal, har⟩ := haf
  obtain ⟨⟨l1, vl, a1, a2⟩, ⟨l2, wl, b1, b2⟩⟩ := lu_first hL hsem hne l h0 (by linarith) hFl hal hn.1 hu.1
  obtain ⟨⟨r1, vr, c1, c2⟩, ⟨r2, wr, d1, d2⟩⟩ := lu_first hL hsem hne r (S := t + a) (by linarith)
    (by linarith) hFr har hn.2 hu.2
  obtain ⟨z, v, e1, e2, e3, e4, e5, e6, e7⟩ := untl_front (s := s) hA hBd h0 ha hab a2.node c2.node a2.is c2.is s.zlow
  obtain ⟨z', v', f1, f2, f3, f4, -, -, -⟩ := untl_front (s := s) hA hBd h0 ha hab b2.node d2.node b2.is d2.is s.zup
  obtain rfl : v = v' := er_inj (e4.symm.trans f4)
  have il := a2.is t le_rfl (by linarith)
  have ir := c2.is (t + a) le_rfl (by linarith)
  have jl := b2.is t le_rfl (by linarith)
  have jr := d2.is (t + a) le_rfl (by linarith)
  rw [← a2.val] at il e7
  rw [← c2.val] at ir
  rw [← b2.val] at jl
  rw [← d2.val] at jr
  obtain ⟨dz, g1⟩ := e3.resize_pt 0 (by rw [e2]; linarith)
  obtain ⟨dz', g2⟩ := f3.resize_pt 0 (by rw [f2]; linarith)
  refine ⟨v, e4, ?_, ?_⟩
  · simp only [Tr.computeLow, a1, c1, bind, Except.bind]
    by_cases h1 : vl = -env.B
    · rw [if_pos h1]
      refine ⟨_, _, rfl, fun _ => rfl, fun _ => ⟨le_antisymm e5 (by rw [← h1]; exact e7), fun h => absurd ?_ h⟩⟩
      rw [il, h1]
    · rw [if_neg h1]
      by_cases h2 : vr = -env.B
      · rw [if_pos h2]
        refine ⟨_, _, rfl, fun _ => rfl, fun h => absurd ?_ h⟩
        rw [ir, h2]
      · rw [if_neg h2]
        simp only [Tr.untilLow, ivA_eq, ivB_eq, hA, hBd, e1, bind, Except.bind, hs.1, hs.2]
        rw [max_eq_left (min_le_right _ _), g1]
        refine ⟨_, _, rfl, fun h => absurd ?_ h2, fun _ => ⟨rfl, fun _ => node_pt e5 e6⟩⟩
        rw [ir] at h
        exact er_inj h
  · simp only [Tr.computeUp, b1, d1, bind, Except.bind]
    by_cases h1 : wl = env.B
    · rw [if_pos h1]
      refine ⟨_, _, rfl, fun _ => rfl, fun h => absurd (Or.inl ?_) h⟩
      rw [jl, h1]
    · rw [if_neg h1]
      by_cases h2 : wr = env.B
      · rw [if_pos h2]
        refine ⟨_, _, rfl, fun _ => rfl, fun h => absurd (Or.inr ?_) h⟩
        rw [jr, h2]
      · rw [if_neg h2]
        simp only [Tr.untilUp, ivA_eq, ivB_eq, hA, hBd, f1, bind, Except.bind, hs.1, hs.2]
        rw [max_eq_left (min_le_right _ _), g2]
        refine ⟨_, _, rfl, fun h => ?_, fun _ => ⟨rfl, node_pt e5 e6⟩⟩
        rcases h with h | h
        · rw [jl] at h
          exact absurd (er_inj h) h1
        · rw [jr] at h
          exact absurd (er_inj h) h2

theorem Node.lead {B t : ℚ} {x : Signal} (h : Node B x t t) : Lead x t (x.v (pl t)) := by
  obtain ⟨p, r, h1, h2⟩ := h.wf.exists_cons
  refine ⟨h.b, by rw [h.e], ⟨p, r, h1, by rw [h2, h.b]⟩, fun q hq => ⟨?_, fun e => ?_⟩⟩
  · have := h.wf.begin_le q hq
    rwa [h.b] at this
  · rw [h.cg.vc q hq, e]

/-- `Q` at the formulas below the Boolean operators at the top. -/
inductive OnTop (Q : Tr → Prop) : Tr → Prop
  | base {T} : Q T → OnTop Q T
  | not {s c} : OnTop Q c → OnTop Q (.not s c)
  | and {s l r} : OnTop Q l → OnTop Q r → OnTop Q (.and s l r)
  | or {s l r} : OnTop Q l → OnTop Q r → OnTop Q (.or s l r)
  | implies {s l r} : OnTop Q l → OnTop Q r → OnTop Q (.implies s l r)

/-- `Q` at the formulas below the Boolean operators at the top, whose evaluation interval is the time `t`. -/
inductive TopDone (t : ℚ) (Q : Tr → Prop) : Tr → Prop
  | base {T} : Q T → TopDone t Q T
  | not {s c} : Spn t t s → TopDone t Q c → TopDone t Q (.not s c)
  | and {s l r} : Spn t t s → TopDone t Q l → TopDone t Q r → TopDone t Q (.and s l r)
  | or {s l r} : Spn t t s → TopDone t Q l → TopDone t Q r → TopDone t Q (.or s l r)
  | implies {s l r} : Spn t t s → TopDone t Q l → TopDone t Q r → TopDone t Q (.implies s l r)

/-- `compute_robustness` at time `t` returns the robustness and leaves `Q` behind. -/
def TopLed (env : Env) (ip : Interpol) (t : ℚ) (Q : Tr → Prop) (T : Tr) : Prop :=
  ∃ T' v, Tr.computeRob env T = .ok (T', v) ∧
    rob ip env.data env.params T t = er v ∧ Q T' ∧ Led T'.st.z t v

/-- `compute_robustness` at time `t`. -/
theorem top_rob {ip : Interpol} {t : ℚ} {Q : Tr → Prop} {T : Tr} (h : OnTop (TopLed env ip t Q) T) :
    Fresh env.params t t T → TopLed env ip t (TopDone t Q) T := by
  induction h with
  | base h =>
    obtain ⟨T', v, h1, h2, h3, h4⟩ := h
    exact fun _ => ⟨T', v, h1, h2, .base h3, h4⟩
  | @not s c _ ih =>
    intro hf
    obtain ⟨c', v, a1, a2, a3, a4⟩ := ih hf.2
    obtain ⟨p, hp, hpv⟩ := a4.not.front
    refine ⟨.not { s with z := computeNot c'.st.z } c', p.value, ?_, ?_, .not ⟨hf.1.1, hf.1.2.1⟩ a3, by rw [hpv]; exact a4.not⟩
    · simp only [Tr.computeRob, a1, bind, Except.bind, hp]
    · rw [hpv]
      simp only [rob, a2]
      exact (er_neg v).symm
  | @and s l r _ _ ih1 ih2 =>
    intro hf
    obtain ⟨l', v, a1, a2, a3, a4⟩ := ih1 hf.2.1
    obtain ⟨r', w, b1, b2, b3, b4⟩ := ih2 hf.2.2
    obtain ⟨z, c1, c2⟩ := computeAndM_led (a4.ext (le_max_left _ r'.st.z.endTime))
      (b4.ext (le_max_right l'.st.z.endTime _))
    obtain ⟨p, hp, hpv⟩ := c2.front
    refine ⟨.and { s with z := z } l' r', p.value, ?_, ?_, .and ⟨hf.1.1, hf.1.2.1⟩ a3 b3, by rw [hpv]; exact c2⟩
    · simp only [Tr.computeRob, a1, b1, bind, Except.bind, Tr.andRob, c1, hp]
    · rw [hpv]
      simp only [rob, a2, b2]
      exact (er_min v w).symm
  | @or s l r _ _ ih1 ih2 =>
    intro hf
    obtain ⟨l', v, a1, a2, a3, a4⟩ := ih1 hf.2.1
    obtain ⟨r', w, b1, b2, b3, b4⟩ := ih2 hf.2.2
    obtain ⟨z, c1, c2⟩ := computeOrM_led (a4.ext (le_max_left _ r'.st.z.endTime))
      (b4.ext (le_max_right l'.st.z.endTime _))
    obtain ⟨p, hp, hpv⟩ := c2.front
    refine ⟨.or { s with z := z } l' r', p.value, ?_, ?_, .or ⟨hf.1.1, hf.1.2.1⟩ a3 b3, by rw [hpv]; exact c2⟩
    · simp only [Tr.computeRob, a1, b1, bind, Except.bind, Tr.orRob, c1, hp]
    · rw [hpv]
      simp only [rob, a2, b2]
      exact (er_max v w).symm
  | @implies s l r _ _ ih1 ih2 =>
    intro hf
    obtain ⟨l', v, a1, a2, a3, a4⟩ := ih1 hf.2.1
    obtain ⟨r', w, b1, b2, b3, b4⟩ := ih2 hf.2.2
    obtain ⟨z, c1, c2⟩ := computeOrM_led a4.not b4
    obtain ⟨p, hp, hpv⟩ := c2.front
    refine ⟨.implies { s with z := z } l' r', p.value, ?_, ?_, .implies ⟨hf.1.1, hf.1.2.1⟩ a3 b3, by rw [hpv]; exact c2⟩
    · simp only [Tr.computeRob, a1, b1, bind, Except.bind, computeImpliesM, c1, hp]
    · rw [hpv]
      simp only [rob, a2, b2]
      rw [← er_neg, ← er_max]

/-- A computed bound that is exact at `t`. -/
def Exact1 (env : Env) (ip : Interpol) (t : ℚ) (T : Tr) (z : Signal) (v : ℚ) : Prop :=
  Node env.B z t t ∧ Is z t t (rob ip env.data env.params T) ∧ v = z.v (pl t)

/-- Both bounds are exact at `t`. -/
def TopBnd (env : Env) (ip : Interpol) (t : ℚ) (T : Tr) : Prop :=
  (∃ T' v, Tr.computeLow env T = .ok (T', v) ∧ Exact1 env ip t T T'.st.zlow v) ∧
  (∃ T' v, Tr.computeUp env T = .ok (T', v) ∧ Exact1 env ip t T T'.st.zup v)

/-- Both bounds at time `t`. -/
theorem top_lu {ip : Interpol} {t : ℚ} {T : Tr} (h : TopDone t (TopBnd env ip t) T) : TopBnd env ip t T := by
  induction h with
  | base h => exact h
  | @not s c ha _ ih =>
    obtain ⟨⟨c1, v1, l1, l2⟩, ⟨c2, v2, u1, u2⟩⟩ := ih
    obtain ⟨p, hp, hp'⟩ := u2.1.not.front
    obtain ⟨q, hq, hq'⟩ := l2.1.not.front
    refine ⟨⟨.not { s with zlow := computeNot c2.st.zup } c2, p.value, ?_, u2.1.not, u2.2.1.not, hp'⟩,
      ⟨.not { s with zup := computeNot c1.st.zlow } c1, q.value, ?_, l2.1.not, l2.2.1.not, hq'⟩⟩
    · simp only [Tr.computeLow, u1, bind, Except.bind, if_neg u2.1.wf.ne, hp]
    · simp only [Tr.computeUp, l1, bind, Except.bind, if_neg l2.1.wf.ne, hq]
  | @and s l r ha _ _ ih1 ih2 =>
    obtain ⟨⟨c1, v1, l1, l2⟩, ⟨c2, v2, u1, u2⟩⟩ := ih1
    obtain ⟨⟨d1, w1, m1, m2⟩, ⟨d2, w2, t1, t2⟩⟩ := ih2
    obtain ⟨z, w, p, a1, a2, a3, a4, a5, a6, a7, _⟩ := andBound (-env.B) l2.1 m2.1
    obtain ⟨z', w', p', b1, b2, b3, b4, b5, b6, b7, _⟩ := andBound env.B u2.1 t2.1
    have hlo : Tr.andLow env s c1.st.zlow d1.st.zlow = .ok w := by
      unfold Tr.andLow
      rw [l2.1.e, m2.1.e, min_self, ha.1]
      simp only [a1, bind, Except.bind, a3, appendIfEmpty_ne a4.wf.ne]
    have hup : Tr.andUp env s c2.st.zup d2.st.zup = .ok w' := by
      unfold Tr.andUp
      simp only [b1, bind, Except.bind, b2, ha.1, b3, appendIfEmpty_ne b4.wf.ne]
    refine ⟨⟨.and { s with zlow := w } c1 d1, p.value, ?_, a4, l2.2.1.min m2.2.1 a5, a7⟩,
      ⟨.and { s with zup := w' } c2 d2, p'.value, ?_, b4, u2.2.1.min t2.2.1 b5, b7⟩⟩
    · simp only [Tr.computeLow, l1, m1, bind, Except.bind, hlo, a6]
    · simp only [Tr.computeUp, u1, t1, bind, Except.bind, hup, b6]
  | @or s l r ha _ _ ih1 ih2 =>
    obtain ⟨⟨c1, v1, l1, l2⟩, ⟨c2, v2, u1, u2⟩⟩ := ih1
    obtain ⟨⟨d1, w1, m1, m2⟩, ⟨d2, w2, t1, t2⟩⟩ := ih2
    obtain ⟨z, w, p, a1, a2, a3, a4, a5, a6, a7, _⟩ := orBound (-env.B) l2.1 m2.1
    obtain ⟨z', w', p', b1, b2, b3, b4, b5, b6, b7, _⟩ := orBound env.B u2.1 t2.1
    have hlo : Tr.orLow env s c1.st.zlow d1.st.zlow = .ok w := by
      unfold Tr.orLow
      simp only [a1, bind, Except.bind, a2, ha.1, a3, appendIfEmpty_ne a4.wf.ne]
    have hup : Tr.orUp env s c2.st.zup d2.st.zup = .ok w' := by
      unfold Tr.orUp
      rw [u2.1.e, t2.1.e, min_self, ha.1]
      simp only [b1, bind, Except.bind, b3, appendIfEmpty_ne b4.wf.ne]
    refine ⟨⟨.or { s with zlow := w } c1 d1, p.value, ?_, a4, l2.2.1.max m2.2.1 a5, a7⟩,
      ⟨.or { s with zup := w' } c2 d2, p'.value, ?_, b4, u2.2.1.max t2.2.1 b5, b7⟩⟩
    · simp only [Tr.computeLow, l1, m1, bind, Except.bind, hlo, a6]
    · simp only [Tr.computeUp, u1, t1, bind, Except.bind, hup, b6]
  | @implies s l r ha _ _ ih1 ih2 =>
    obtain ⟨⟨c1, v1, l1, l2⟩, ⟨c2, v2, u1, u2⟩⟩ := ih1
    obtain ⟨⟨d1, w1, m1, m2⟩, ⟨d2, w2, t1, t2⟩⟩ := ih2
    obtain ⟨z, w, p, a1, a2, a3, a4, a5, a6, a7, _⟩ := orBound (-env.B) u2.1.not m2.1
    obtain ⟨z', w', p', b1, b2, b3, b4, b5, b6, b7, _⟩ := orBound env.B l2.1.not t2.1
    have hlo : Tr.impliesLow env s c2.st.zup d1.st.zlow = .ok w := by
      unfold Tr.impliesLow
      simp only [a1, bind, Except.bind, a2, ha.1, a3, appendIfEmpty_ne a4.wf.ne]
    have hup : Tr.impliesUp env s c1.st.zlow d2.st.zup = .ok w' := by
      unfold Tr.impliesUp
      simp only [b1, bind, Except.bind]
      rw [l2.1.not.e, t2.1.e, min_self, ha.1, b3]
      simp only [appendIfEmpty_ne b4.wf.ne]
    refine ⟨⟨.implies { s with zlow := w } c2 d1, p.value, ?_, a4, u2.2.1.not.max m2.2.1 a5, a7⟩,
      ⟨.implies { s with zup := w' } c1 d2, p'.value, ?_, b4, l2.2.1.not.max t2.2.1 b5, b7⟩⟩
    · simp only [Tr.computeLow, u1, m1, bind, Except.bind, hlo, a6]
    · simp only [Tr.computeUp, l1, t1, bind, Except.bind, hup, b6]

/-- An until-free formula. -/
theorem top_base (hL : Lin env n) (hsem : env.sem = .SPACE) {t : ℚ} (h0 : 0 ≤ t) {T : Tr} (hF : IsFormula n env.params T)
    (hc : Covers env.data t (t + reach env.params T)) (hf : Fresh env.params t t T)
    (hk : AtomsOk env.data env.params t t T)
    (hB : AtomsWithin .LINEAR env.B env.data env.params t t T)
    (hn : NoLongSlope .LINEAR env.data env.params t t T) (hu : Untrimmed env.params t t T) :
    TopLed env .LINEAR t (TopBnd env .LINEAR t) T := by
  obtain ⟨T', v, a1, a2⟩ := rob_first hL hsem T h0 le_rfl hc hF hf hk hB hn
  have hp := Tr.forgetB_computeRob (b := false) _ a1
  obtain ⟨⟨T1, v1, b1, b2⟩, ⟨T2, w, c1, c2⟩⟩ := lu_first hL hsem hc.facts.1 T' h0 le_rfl
    (by rw [← isFormula_forget, hp, isFormula_forget]; exact hF) a2.after
    (by rw [← noLongSlope_forget, hp, noLongSlope_forget]; exact hn)
    (by rw [← untrimmed_forget, hp, untrimmed_forget]; exact hu)
  exact ⟨T', v, a1, a2.eq, ⟨⟨T1, v1, b1, b2.node, b2.is, b2.val⟩, ⟨T2, w, c1, c2.node, c2.is, c2.val⟩⟩,
    by rw [a2.val]; exact .inl a2.node.lead⟩

/-- The formulas of `UntilOutside`. -/
theorem top_linear (hL : Lin env n) (hsem : env.sem = .SPACE) {t : ℚ} (h0 : 0 ≤ t) (T : Tr) :
    UntilOutside n env.params T → Covers env.data t (t + reach env.params T) → Fresh env.params t t T →
    AtomsOk env.data env.params t t T →
    AtomsWithin .LINEAR env.B env.data env.params t t T →
    NoLongSlope .LINEAR env.data env.params t t T → Untrimmed env.params t t T →
    BeginsInside .LINEAR env.B env.data env.params t T →
    OnTop (TopLed env .LINEAR t (TopBnd env .LINEAR t)) T := by
  induction T with
  | untl s l I r =>
    rintro ⟨ha, hab, hFl, hFr⟩ hc hf hk hB hn hu hi
    obtain ⟨T', v, h1, h2, h3, h4⟩ := untl_rob hL hsem rfl rfl h0 ha hab hFl hFr hc hf hk hB hn
    refine .base ⟨T', v, h1, h2, ?_, h4⟩
    have hp := Tr.forgetB_computeRob (b := false) _ h1
    have hsh : UntilOutside n env.params T' := by
      rw [← untilOutside_forget, hp, untilOutside_forget]; exact ⟨ha, hab, hFl, hFr⟩
    have hi' : BeginsInside .LINEAR env.B env.data env.params t T' := by
      rw [← beginsInside_forget, hp, beginsInside_forget]; exact hi
    have hn' : NoLongSlope .LINEAR env.data env.params t t T' := by
      rw [← noLongSlope_forget, hp, noLongSlope_forget]; exact hn
    have hu' : Untrimmed env.params t t T' := by
      rw [← untrimmed_forget, hp, untrimmed_forget]; exact hu
    cases T' with
    | untl s' l' I' r' =>
      obtain ⟨ha, hab, hFl, hFr⟩ := hsh
      obtain ⟨v, h1, ⟨T1, w1, a1, -, a2⟩, ⟨T2, w2, b1, -, b2⟩⟩ :=
        untl_lu hL hsem hc.facts.1 rfl rfl h0 ha hab hFl hFr hn' hu' h3
      obtain ⟨rfl, a3⟩ := a2 hi'.2.1.ne'
      obtain ⟨a4, a5⟩ := a3 hi'.1.1.ne'
      obtain ⟨rfl, b4, b5⟩ := b2 (by rintro (h | h); exacts [hi'.1.2.ne h, hi'.2.2.ne h])
      have pt : ∀ {u : ℚ}, t ≤ u → u ≤ t → u = t := fun a b => le_antisymm b a
      exact ⟨⟨T1, _, a1, a4, fun u p q => by rw [pt p q, h1, a5], a5.symm⟩,
        ⟨T2, _, b1, b4, fun u p q => by rw [pt p q, h1, b5], b5.symm⟩⟩
    | _ => exact h3.elim
  | not s c ih => exact fun hF hc hf hk hB hn hu hi => .not (ih hF hc hf.2 hk hB hn hu hi)
  | and s l r ih1 ih2 =>
    exact fun hF hc hf hk hB hn hu hi => .and
      (ih1 hF.1 (covers_mono hc le_rfl (by simp [reach])) hf.2.1 hk.1 hB.1 hn.1 hu.1 hi.1)
      (ih2 hF.2 (covers_mono hc le_rfl (by simp [reach])) hf.2.2 hk.2 hB.2 hn.2 hu.2 hi.2)
  | or s l r ih1 ih2 =>
    exact fun hF hc hf hk hB hn hu hi => .or
      (ih1 hF.1 (covers_mono hc le_rfl (by simp [reach])) hf.2.1 hk.1 hB.1 hn.1 hu.1 hi.1)
      (ih2 hF.2 (covers_mono hc le_rfl (by simp [reach])) hf.2.2 hk.2 hB.2 hn.2 hu.2 hi.2)
  | implies s l r ih1 ih2 =>
    exact fun hF hc hf hk hB hn hu hi => .implies
      (ih1 hF.1 (covers_mono hc le_rfl (by simp [reach])) hf.2.1 hk.1 hB.1 hn.1 hu.1 hi.1)
      (ih2 hF.2 (covers_mono hc le_rfl (by simp [reach])) hf.2.2 hk.2 hB.2 hn.2 hu.2 hi.2)
  | _ => exact fun hF hc hf hk hB hn hu _ => .base (top_base hL hsem h0 hF hc hf hk hB hn hu)

end

/-- An evaluation from its three parts, both bounds started from the tree that
`compute_robustness` left. -/
theorem evalRob1_of {g : Globals} {m : Monitor} {n : ℕ} {T T1 U1 U2 : Tr} {t v lo up : ℚ}
    (hform : m.formula = some T) (hrows : WellShaped n m.data) (hstl : IsStl (Monitor.prepare m.params t t T))
    (h1 : Tr.computeRob (m.envOf g) (Monitor.prepare m.params t t T) = .ok (T1, v))
    (h2 : Tr.computeLow (m.envOf g) T1 = .ok (U1, lo)) (h3 : Tr.computeUp (m.envOf g) T1 = .ok (U2, up)) :
    ∃ g' m', m.evalRob1 g t = (g', m', .ok v) ∧ m'.rob = v ∧ m'.lowerRob = lo ∧ m'.upperRob = up := by
  obtain ⟨hS, _⟩ := rob_settles (env := m.envOf g) hrows _ hstl (fresh_prepare m.params T t t) h1
  obtain ⟨_, hk⟩ := bnd_keeps (env := m.envOf g) hrows T1 hS (b := true) h2
  rcases seen_cases hk.seen with ⟨x, e1, _⟩ | ⟨U', V1, w, e1, e2, _⟩
  · rw [show bnd (m.envOf g) (!true) T1 = Tr.computeUp (m.envOf g) T1 from rfl, h3] at e1; cases e1
  · obtain rfl : up = w := by
      rw [show bnd (m.envOf g) (!true) T1 = Tr.computeUp (m.envOf g) T1 from rfl, h3] at e1
      exact (Prod.mk.inj (Except.ok.inj e1)).2
    have hr : Monitor.run3 (m.envOf g) (Monitor.prepare m.params t t T) = .ok (V1, v, lo, up) := by
      simp only [Monitor.run3, h1, h2, bind, Except.bind]
      rw [show Tr.computeUp (m.envOf g) U1 = .ok (V1, up) from e2]
    refine ⟨{ g with sem := m.sem, ip := m.ip },
      { m with formula := some V1, rob := v, lowerRob := lo, upperRob := up }, ?_, rfl, rfl, rfl⟩
    unfold Monitor.evalRob1 Monitor.evalRob
    rw [hform]
    simp only
    rw [show Monitor.run3 ⟨g.B, m.sem, m.ip, m.data, m.params⟩ _ = _ from hr]

theorem UntilOutside.stl {n : ℕ} {P : Assoc ℚ} : ∀ {T : Tr}, UntilOutside n P T → IsStl T := by
  intro T
  induction T with
  | untl s l I r => exact fun h => ⟨h.2.2.1.stl, h.2.2.2.stl⟩
  | not s c ih => exact fun h => ih h
  | and s l r h1 h2 | or s l r h1 h2 | implies s l r h1 h2 => exact fun h => ⟨h1 h.1, h2 h.2⟩
  | _ => exact fun h => IsFormula.stl h

/-- An evaluation at one time, from what is below the Boolean operators at the top. -/
theorem evalRob_top_of {g : Globals} {m : Monitor} {n : ℕ} {ip : Interpol} {T : Tr} {t : ℚ}
    (hform : m.formula = some T) (hnames : m.params.lookup "" = none) (hrows : WellShaped n m.data) (hstl : IsStl T)
    (h : OnTop (TopLed (m.envOf g) ip t (TopBnd (m.envOf g) ip t)) (Monitor.prepare m.params t t T)) :
    ∃ g' m' v, m.evalRob1 g t = (g', m', .ok v) ∧ rob ip m.data m.params T t = er v ∧
      m'.rob = v ∧ m'.lowerRob = v ∧ m'.upperRob = v := by
  have hp : (Monitor.prepare m.params t t T).forgetB false = T.forgetB false :=
    Tr.forgetB_prepare (by simp [hnames]) t t T
  have hstl' : IsStl (Monitor.prepare m.params t t T) := by
    rw [← isStl_forget, hp, isStl_forget]; exact hstl
  obtain ⟨T1, v, a1, a2, a3, _⟩ := top_rob h (fresh_prepare _ T t t)
  have hf : T1.forgetB false = T.forgetB false := (Tr.forgetB_computeRob _ a1).trans hp
  have hr : rob ip m.data m.params T1 = rob ip m.data m.params T := by
    rw [← rob_forget, hf, rob_forget]
  have hr0 : rob ip m.data m.params (Monitor.prepare m.params t t T) = rob ip m.data m.params T := by
    rw [← rob_forget, hp, rob_forget]
  obtain ⟨⟨U1, lo, b1, b2⟩, ⟨U2, up, c1, c2⟩⟩ := top_lu a3
  have hv : rob ip m.data m.params T t = er v := by rw [← hr0]; exact a2
  have hlo : lo = v := by
    apply er_inj
    rw [← hv, ← hr, b2.2.2]
    exact (b2.2.1 t le_rfl le_rfl).symm
  have hup : up = v := by
    apply er_inj
    rw [← hv, ← hr, c2.2.2]
    exact (c2.2.1 t le_rfl le_rfl).symm
  obtain ⟨g', m', k1, k2, k3, k4⟩ := evalRob1_of hform hrows hstl' a1 b1 c1
  exact ⟨g', m', v, k1, hv, k2, by rw [k3, hlo], by rw [k4, hup]⟩

/-- Evaluating a Boolean combination of `until` and until-free formulas at any time. -/
theorem evalRob_top {g : Globals} {m : Monitor} {n : ℕ} {T : Tr} {t : ℚ} (h : TopReady n g.B m T t)
    (hu : Untrimmed m.params t t T) (hi : BeginsInside .LINEAR g.B m.data m.params t T) :
    ∃ g' m' v, m.evalRob1 g t = (g', m', .ok v) ∧ rob .LINEAR m.data m.params T t = er v ∧
      m'.rob = v ∧ m'.lowerRob = v ∧ m'.upperRob = v := by
  have hL : Lin (m.envOf g) n := ⟨h.interpol, h.rows, h.names⟩
  have hp : (Monitor.prepare m.params t t T).forgetB false = T.forgetB false :=
    Tr.forgetB_prepare (by simp [h.names]) t t T
  exact evalRob_top_of h.formula h.names h.rows (UntilOutside.stl h.shape) (top_linear hL h.sem h.start _
    (by rw [← untilOutside_forget, hp, untilOutside_forget]; exact h.shape)
    (by rw [← reach_forget, hp, reach_forget]; exact h.covers)
    (fresh_prepare _ T t t)
    (by rw [← atomsOk_forget, hp, atomsOk_forget]; exact h.sampled)
    (by rw [← atomsWithin_forget, hp, atomsWithin_forget]; exact h.within)
    (by rw [← noLongSlope_forget, hp, noLongSlope_forget]; exact h.bends)
    (by rw [← untrimmed_forget, hp, untrimmed_forget]; exact hu)
    (by rw [← beginsInside_forget, hp, beginsInside_forget]; exact hi))

/-- Evaluating `until` over until-free formulas at any time. -/
theorem evalRob_untl {g : Globals} {m : Monitor} {n : ℕ} {st : St} {l r : Tr} {I : Ival} {t a : ℚ}
    (h : TopReady n g.B m (.untl st l I r) t) (hu : Untrimmed m.params t t (.untl st l I r))
    (hA : bound m.params I.beginStr I.begin = a) :
    ∃ g' m' v, m.evalRob1 g t = (g', m', .ok v) ∧
      rob .LINEAR m.data m.params (.untl st l I r) t = er v ∧
      ((rob .LINEAR m.data m.params r (t + a) = er (-g.B) → m'.lowerRob = -g.B) ∧
        (rob .LINEAR m.data m.params r (t + a) ≠ er (-g.B) → m'.lowerRob = v)) ∧
      ((rob .LINEAR m.data m.params l t = er g.B ∨ rob .LINEAR m.data m.params r (t + a) = er g.B →
          m'.upperRob = g.B) ∧
        (¬ (rob .LINEAR m.data m.params l t = er g.B ∨ rob .LINEAR m.data m.params r (t + a) = er g.B) →
          m'.upperRob = v)) := by
  have hL : Lin (m.envOf g) n := ⟨h.interpol, h.rows, h.names⟩
  have hp : ∀ T, (Monitor.prepare m.params t t T).forgetB false = T.forgetB false := fun T =>
    Tr.forgetB_prepare (by simp [h.names]) t t T
  obtain ⟨s0, l0, r0, hT0, hl0, hr0⟩ : ∃ s0 l0 r0, Monitor.prepare m.params t t (.untl st l I r) = .untl s0 l0 I r0 ∧
      l0.forgetB false = l.forgetB false ∧ r0.forgetB false = r.forgetB false := by
    have := hp (.untl st l I r)
    simp only [Monitor.prepare, Tr.setTraceData, Tr.setParamMap, Tr.reset, Tr.setHorizon] at this ⊢
    simp only [Tr.forgetB, Tr.untl.injEq] at this
    exact ⟨_, _, _, rfl, this.2.1, this.2.2.2⟩
  have hp' := hp (.untl st l I r)
  have fr := fresh_prepare m.params (.untl st l I r) t t
  rw [hT0] at hp' fr
  have hsh : UntilOutside n m.params (.untl s0 l0 I r0) := by rw [← untilOutside_forget, hp', untilOutside_forget]; exact h.shape
  have hstl : IsStl (Monitor.prepare m.params t t (.untl st l I r)) := by rw [hT0]; exact UntilOutside.stl (T := .untl s0 l0 I r0) hsh
  obtain ⟨T1, v, a1, a2, a3, _⟩ := untl_rob (env := m.envOf g) hL h.sem (I := I) rfl rfl h.start hsh.1 hsh.2.1 hsh.2.2.1 hsh.2.2.2
    (by rw [← reach_forget, hp', reach_forget]; exact h.covers) fr
    (by rw [← atomsOk_forget, hp', atomsOk_forget]; exact h.sampled)
    (by rw [← atomsWithin_forget, hp', atomsWithin_forget]; exact h.within)
    (by rw [← noLongSlope_forget, hp', noLongSlope_forget]; exact h.bends)
  have hf : T1.forgetB false = (Tr.untl st l I r).forgetB false := (Tr.forgetB_computeRob _ a1).trans hp'
  obtain ⟨s1, l1, r1, rfl, hl1, hr1⟩ : ∃ s1 l1 r1, T1 = .untl s1 l1 I r1 ∧
      l1.forgetB false = l.forgetB false ∧ r1.forgetB false = r.forgetB false := by
    cases T1 <;> simp only [Tr.forgetB, reduceCtorEq, Tr.untl.injEq] at hf
    obtain ⟨-, h1, rfl, h2⟩ := hf
    exact ⟨_, _, _, rfl, h1, h2⟩
  have hsh1 : UntilOutside n m.params (.untl s1 l1 I r1) := by rw [← untilOutside_forget, hf, untilOutside_forget]; exact h.shape
  have rl : rob .LINEAR m.data m.params l1 = rob .LINEAR m.data m.params l := by rw [← rob_forget, hl1, rob_forget]
  have rr : rob .LINEAR m.data m.params r1 = rob .LINEAR m.data m.params r := by rw [← rob_forget, hr1, rob_forget]
  obtain ⟨v', e1, ⟨U1, lo, b1, b2, b3⟩, ⟨U2, up, c1, c2, c3⟩⟩ := untl_lu (env := m.envOf g) hL h.sem h.covers.facts.1 (a := a) hA rfl
    h.start (by rw [← hA]; exact hsh1.1) (by rw [← hA]; exact hsh1.2.1) hsh1.2.2.1 hsh1.2.2.2
    (by rw [← noLongSlope_forget, hf, noLongSlope_forget]; exact h.bends)
    (by rw [← untrimmed_forget, hf, untrimmed_forget]; exact hu) a3
  have hv : rob .LINEAR m.data m.params (.untl st l I r) t = er v := by
    rw [← rob_forget, ← hp', rob_forget]; exact a2
  obtain rfl : v = v' := by
    apply er_inj
    rw [← hv, ← rob_forget, ← hf, rob_forget]
    exact e1
  rw [← hT0] at a1
  obtain ⟨g', m', k1, k2, k3, k4⟩ := evalRob1_of h.formula h.rows hstl a1 b1 c1
  have eB : (m.envOf g).B = g.B := rfl
  have eD : (m.envOf g).data = m.data := rfl
  have eP : (m.envOf g).params = m.params := rfl
  rw [eD, eP, eB, rr] at b2 b3
  rw [eD, eP, eB, rr, rl] at c2 c3
  exact ⟨g', m', v, k1, hv, ⟨fun q => k3.trans (b2 q), fun q => k3.trans (b3 q).1⟩,
    ⟨fun q => k4.trans (c2 q), fun q => k4.trans (c3 q).1⟩⟩

end STLRom
