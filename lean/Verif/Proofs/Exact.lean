import Verif.Proofs.TopSup
import Verif.Spec.Stl

/-!
# Exactness of the operators on continuous signals, as used by the formula proofs
-/

namespace STLRom
open Signal Spec

/-- A continuous signal on `[S, E]` with values within `±B`. -/
structure Node (B : ℚ) (z : Signal) (S E : ℚ) : Prop where
  b : z.beginTime = S
  e : z.endTime = E
  wf : WF0 z
  cg : CG z
  bd : ∀ t, S ≤ t → t ≤ E → -B ≤ z.v (pl t) ∧ z.v (pl t) ≤ B

theorem Node.le {B : ℚ} {z : Signal} {S E : ℚ} (h : Node B z S E) : S ≤ E := by
  rw [← h.b, ← h.e]; exact h.wf.begin_le_end

theorem Node.bdp {B : ℚ} {z : Signal} {S E : ℚ} (h : Node B z S E) {σ : Pt} (h1 : pl S ≤ σ)
    (h2 : σ ≤ pl E) : -B ≤ z.v σ ∧ z.v σ ≤ B := by
  rcases Pt.cases σ with e | e
  · rw [e] at h1 h2 ⊢
    exact h.bd _ (by simpa using h1) (by simpa using h2)
  · rw [e] at h1 h2 ⊢
    rw [pl_le_mi] at h1
    rw [le_pl_iff, mi_time] at h2
    rw [h.cg.cts _ (by rw [h.b]; exact h1) (by rw [h.e]; exact h2)]
    exact h.bd _ h1.le h2

theorem Node.front {B : ℚ} {z : Signal} {S E : ℚ} (h : Node B z S E) :
    ∃ p, z.front = .ok p ∧ p.value = z.v (pl S) := by
  obtain ⟨p, l, hl, hp⟩ := h.wf.exists_cons
  refine ⟨p, by simp [Signal.front, hl], ?_⟩
  rw [h.cg.vc p (by simp [hl]), hp, h.b]

/-- The signal is the function `f` on `[S, E]`. -/
def Is (z : Signal) (S E : ℚ) (f : ℚ → EReal) : Prop := ∀ t, S ≤ t → t ≤ E → f t = er (z.v (pl t))

theorem er_le {a b : ℚ} : er a ≤ er b ↔ a ≤ b := by
  unfold er
  rw [EReal.coe_le_coe_iff, Rat.cast_le]

theorem er_mono : Monotone er := fun _ _ h => er_le.2 h

theorem er_min (a b : ℚ) : er (min a b) = er a ⊓ er b := er_mono.map_min

theorem er_max (a b : ℚ) : er (max a b) = er a ⊔ er b := er_mono.map_max

theorem er_neg (a : ℚ) : er (-a) = -er a := by
  unfold er
  rw [← EReal.coe_neg, Rat.cast_neg]

theorem er_inj {a b : ℚ} (h : er a = er b) : a = b := le_antisymm (er_le.1 h.le) (er_le.1 h.ge)

theorem Node.not {B : ℚ} {z : Signal} {S E : ℚ} (h : Node B z S E) : Node B (computeNot z) S E :=
  ⟨h.b, h.e, h.wf.not, h.cg.not, fun t a b => by
    rw [v_not]
    have := h.bd t a b
    constructor <;> linarith⟩

theorem Is.not {z : Signal} {S E : ℚ} {f : ℚ → EReal} (h : Is z S E f) :
    Is (computeNot z) S E (fun t => -f t) := fun t a b => by
  rw [v_not, er_neg, ← h t a b]

theorem Node.and {B : ℚ} {x y : Signal} {S E : ℚ} (hx : Node B x S E) (hy : Node B y S E) :
    ∃ z, computeAndM x y = .ok z ∧ Node B z S E ∧ WF z ∧
      ∀ t, S ≤ t → t ≤ E → z.v (pl t) = min (x.v (pl t)) (y.v (pl t)) := by
  obtain ⟨z, h1, h2, h3, h4, h5, h6⟩ := computeAndM_same hx.wf hy.wf hx.cg hy.cg hx.b hx.e hy.b hy.e
  refine ⟨z, h1, ⟨h2, h3, h4.toWF0, h5, fun t a b => ?_⟩, h4, h6⟩
  rw [h6 t a b]
  exact ⟨le_min (hx.bd t a b).1 (hy.bd t a b).1, (min_le_left _ _).trans (hx.bd t a b).2⟩

theorem Node.or {B : ℚ} {x y : Signal} {S E : ℚ} (hx : Node B x S E) (hy : Node B y S E) :
    ∃ z, computeOrM x y = .ok z ∧ Node B z S E ∧ WF z ∧
      ∀ t, S ≤ t → t ≤ E → z.v (pl t) = max (x.v (pl t)) (y.v (pl t)) := by
  obtain ⟨z, h1, h2, h3, h4, h5, h6⟩ := computeOrM_same hx.wf hy.wf hx.cg hy.cg hx.b hx.e hy.b hy.e
  refine ⟨z, h1, ⟨h2, h3, h4.toWF0, h5, fun t a b => ?_⟩, h4, h6⟩
  rw [h6 t a b]
  exact ⟨(hx.bd t a b).1.trans (le_max_left _ _), max_le (hx.bd t a b).2 (hy.bd t a b).2⟩

theorem Is.min {x y z : Signal} {S E : ℚ} {f g : ℚ → EReal} (hx : Is x S E f) (hy : Is y S E g)
    (h : ∀ t, S ≤ t → t ≤ E → z.v (pl t) = Min.min (x.v (pl t)) (y.v (pl t))) :
    Is z S E (fun t => f t ⊓ g t) := fun t a b => by
  rw [h t a b, er_min, ← hx t a b, ← hy t a b]

theorem Is.max {x y z : Signal} {S E : ℚ} {f g : ℚ → EReal} (hx : Is x S E f) (hy : Is y S E g)
    (h : ∀ t, S ≤ t → t ≤ E → z.v (pl t) = Max.max (x.v (pl t)) (y.v (pl t))) :
    Is z S E (fun t => f t ⊔ g t) := fun t a b => by
  rw [h t a b, er_max, ← hx t a b, ← hy t a b]

/-! ## Resizing -/

theorem tol_pos : (0 : ℚ) < tol := by unfold tol; positivity

theorem getLast_lt_of {x : Signal} (hx : WFB x) {s : ℚ} (h : ¬ ∃ p ∈ x.samples, s ≤ p.time) :
    ∃ p, x.samples.getLast? = some p ∧ p.time < s :=
  ⟨_, List.getLast?_eq_some_getLast hx.ne, by
    push Not at h
    exact h _ (List.getLast_mem hx.ne)⟩

/-- Trimming a continuous signal gives a continuous signal.  The value at the new start is right;
the others are if the slope is kept. -/
theorem resize_cg {x : Signal} {s t : ℚ} (v : ℚ) (hx : WF0 x) (hc : CG x)
    (h0 : x.beginTime ≤ s) (hst : s ≤ t) (hte : t ≤ x.endTime) :
    ∃ z, resize x s t v = .ok z ∧ z.beginTime = s ∧ z.endTime = t ∧ WF0 z ∧ CG z ∧
      (KeepsSlope x s → ∀ u, s ≤ u → u ≤ t → z.v (pl u) = x.v (pl u)) ∧
      (∀ u, s ≤ u → u ≤ t → ∃ w, x.beginTime ≤ w ∧ w ≤ x.endTime ∧ z.v (pl u) = x.v (pl w)) ∧
      (x.beginTime = s → z.samples <+: x.samples) := by
  by_cases hk : KeepsSlope x s
  · obtain ⟨z, h1, h2, h3, h4, h5, _, h6, h7, h8, h9⟩ := resize_inside v hx.wfb h0 hst hte hk
    have hv : ∀ τ, pl s ≤ τ → τ ≤ pl t → z.v τ = x.v τ := fun τ a b => by
      unfold Signal.v; rw [h5 τ a b]
    refine ⟨z, h1, h2, h3, h4, ⟨fun u a b => ?_, fun p hp => ?_⟩,
      fun _ u a b => hv _ (by simpa using a) (by simpa using b),
      fun u a b => ⟨u, h0.trans a, b.trans hte, hv _ (by simpa using a) (by simpa using b)⟩, h6⟩
    · rw [h2] at a
      rw [h3] at b
      rw [hv _ (by simpa using a) (by simpa [le_pl_iff] using b),
        hv _ (by simpa using a.le) (by simpa using b), hc.cts u (h0.trans_lt a) (b.trans hte)]
    · have hps := h4.begin_le p hp
      have hpe := h4.le_end p hp
      rw [h2] at hps
      rw [h3] at hpe
      have hin : p ∈ x.samples → p.value = z.v (pl p.time) := by
        intro h
        rw [hv _ (by simpa using hps) (by simpa using hpe), hc.vc p h]
      rcases h9 with h9 | h9
      · exact hin (h9 p hp)
      · rcases h7 p hp with h | ⟨h, _⟩
        · exact hin h
        · obtain ⟨q, l, hl, hq⟩ := h9.exists_cons
          rw [hl] at hp
          rcases List.mem_cons.1 hp with rfl | hp
          · rw [hq, h9.v_begin hl]
          · have := h9.strict p (by rw [hl]; exact hp)
            rw [h, h2] at this
            exact absurd this (lt_irrefl _)
  · -- all samples lie before `s`: the result is constant
    unfold KeepsSlope at hk
    push Not at hk
    obtain ⟨k1, k2, k3⟩ := hk
    obtain ⟨f, hf, hfs⟩ := getLast_lt_of hx.wfb (by push Not; exact k2)
    obtain ⟨pre, rest, t1, t2, t3, t4⟩ := trimFront_spec s x.samples Sample.zero hx.sorted
    have hrest : rest = [] := by
      cases rest with
      | nil => rfl
      | cons p rest =>
        have := k2 p (by rw [t1]; simp)
        exact absurd (t3 p (by simp)) (not_le.2 this)
    subst hrest
    simp only [List.append_nil] at t1
    have hfv : x.v (pl s) = f.valueAt s := by
      apply Signal.v_of_val
      simp only [val]
      rw [val_append_last hf (by simpa using hfs.le)]
      rfl
    refine ⟨⟨[⟨s, f.valueAt s, 0⟩], s, t⟩, ?_, rfl, rfl,
      ⟨by simp, by simp, by simp [Sorted], by simpa using hst⟩, ?_, fun h => ?_, fun u a b => ?_,
      fun h => absurd h k1⟩
    · unfold resize
      have := tol_pos
      rw [if_neg (by linarith)]
      have hfront : resizeFront x s = .ok ⟨[⟨s, f.valueAt s, 0⟩], x.beginTime, x.endTime⟩ := by
        unfold resizeFront
        rw [if_neg (not_lt.2 h0), t4, ← t1, hf]
        simp [not_lt.2 (hst.trans hte)]
      rw [hfront]
      simp only [bind, Except.bind, resizeBack, if_neg (not_lt.2 hst), if_neg (not_lt.2 hte)]
      have : trimBack t [⟨s, f.valueAt s, 0⟩] = [⟨s, f.valueAt s, 0⟩] := by
        simp [trimBack, not_lt.2 hst]
      rw [this]
      simp
    · have hv : ∀ τ, pl s ≤ τ → (⟨[⟨s, f.valueAt s, 0⟩], s, t⟩ : Signal).v τ = f.valueAt s := by
        intro τ a
        apply Signal.v_of_val
        rw [val_cons_of_lt (by simp) a]
        simp [Sample.valueAt]
      refine ⟨fun u a b => ?_, fun p hp => ?_⟩
      · rw [hv _ (by simpa using a), hv _ (by simpa using le_of_lt a)]
      · simp only [List.mem_singleton] at hp
        subst hp
        rw [hv _ le_rfl]
    · rcases h with h | h | h
      · exact absurd h k1
      · obtain ⟨p, hp, hps⟩ := h
        exact absurd hps (not_le.2 (k2 p hp))
      · obtain ⟨p, hp, hps⟩ := k3
        exact absurd (h p hp) hps
    · refine ⟨s, h0, hst.trans hte, ?_⟩
      rw [hfv]
      apply Signal.v_of_val
      rw [val_cons_of_lt (by simp) (by simpa using a)]
      simp [Sample.valueAt]

/-- Extending a signal to the front. -/
theorem resize_ext {x : Signal} {s t : ℚ} (v : ℚ) (hx : WF0 x) (hc : CG x)
    (h0 : s < x.beginTime) (hbt : x.beginTime ≤ t) (hte : t ≤ x.endTime) :
    ∃ z, resize x s t v = .ok z ∧ z.beginTime = s ∧ z.endTime = t ∧ WF0 z ∧ CG z ∧
      (∀ u, x.beginTime ≤ u → u ≤ t → z.v (pl u) = x.v (pl u)) ∧
      (∀ u, s ≤ u → u ≤ x.beginTime → z.v (pl u) = x.v (pl x.beginTime)) ∧
      (∃ p, p.time = s ∧ z.samples = p :: trimBack t x.samples) := by
  obtain ⟨f, l, hl, hf⟩ := hx.exists_cons
  have hfv : f.value = x.v (pl x.beginTime) := by rw [hc.vc f (by simp [hl]), hf]
  have hsorted : Sorted (⟨s, f.value, 0⟩ :: x.samples) := by
    refine List.pairwise_cons.2 ⟨fun p hp => ?_, hx.sorted⟩
    exact h0.le.trans (hx.begin_le p hp)
  obtain ⟨b1, b2, b3, b4, b5⟩ := trimBack_spec t x.samples hx.sorted
  have hfm : f ∈ trimBack t x.samples := b3 f (by simp [hl]) (by rw [hf]; exact hbt)
  have hne : trimBack t x.samples ≠ [] := List.ne_nil_of_mem hfm
  obtain ⟨g, m, hg⟩ := List.exists_cons_of_ne_nil hne
  have hgf : g = f := by
    obtain ⟨suf, hsuf⟩ := b4
    rw [hg, hl] at hsuf
    simp only [List.cons_append, List.cons.injEq] at hsuf
    exact hsuf.1
  subst hgf
  have htb : trimBack t (⟨s, g.value, 0⟩ :: x.samples) = ⟨s, g.value, 0⟩ :: trimBack t x.samples := by
    unfold trimBack
    rw [List.reverse_cons, List.dropWhile_append]
    have : (List.dropWhile (fun p : Sample => decide (t < p.time)) x.samples.reverse) ≠ [] := by
      intro h
      apply hne
      simp [trimBack, h]
    rw [if_neg (by simpa using this)]
    simp
  set z : Signal := ⟨⟨s, g.value, 0⟩ :: trimBack t x.samples, s, t⟩ with hz
  have hzs : Sorted z.samples := by rw [hz, ← htb]; exact hsorted.sublist (trimBack_spec t _ hsorted).1
  have hlate : ∀ τ, pl x.beginTime ≤ τ → τ ≤ pl t → z.v τ = x.v τ := by
    intro τ a b
    unfold Signal.v
    have h1 := b5 τ b
    have h2 := hx.val a
    rw [h2] at h1
    rw [show val z.samples τ = some (x.v τ) from val_cons_of_some h1, h2]
  have hearly : ∀ τ, pl s ≤ τ → τ < pl x.beginTime → z.v τ = x.v (pl x.beginTime) := by
    intro τ a b
    rw [← hfv]
    apply Signal.v_of_val
    rw [hz]
    rw [val_cons_of_lt ?_ a]
    · simp [Sample.valueAt]
    · intro q hq
      exact b.trans_le (by simpa using hx.begin_le q (b1.subset hq))
  have hbv : z.v (pl x.beginTime) = x.v (pl x.beginTime) := hlate _ le_rfl (by simpa using hbt)
  refine ⟨z, ?_, rfl, rfl, ⟨by simp [hz], by simp [hz], hzs, ?_⟩, ⟨?_, ?_⟩, ?_, ?_, _, rfl, rfl⟩
  · unfold resize
    have := tol_pos
    rw [if_neg (by linarith)]
    have hfront : resizeFront x s = .ok ⟨⟨s, g.value, 0⟩ :: x.samples, x.beginTime, x.endTime⟩ := by
      unfold resizeFront
      rw [if_pos h0, hl]
    rw [hfront]
    simp only [bind, Except.bind, resizeBack, if_neg (not_lt.2 hte),
      if_neg (not_lt.2 (h0.le.trans hbt)), htb]
    simp [hz]
  · intro p hp
    rcases List.mem_cons.1 hp with rfl | hp
    · exact h0.le.trans hbt
    · exact b2 p hp
  · intro u a b
    have a' : s < u := a
    have b' : u ≤ t := b
    rcases le_or_gt u x.beginTime with h | h
    · rw [hearly _ (by simpa using a') (by simpa using h)]
      rcases h.lt_or_eq with h | h
      · rw [hearly _ (by simpa using a'.le) (by simpa using h)]
      · rw [h, hbv]
    · rw [hlate _ (by simpa using h) (by simpa [le_pl_iff] using b'),
        hlate _ (by simpa using h.le) (by simpa using b'), hc.cts u h (b'.trans hte)]
  · intro p hp
    rcases List.mem_cons.1 hp with rfl | hp
    · rw [hearly _ le_rfl (by simpa using h0), hfv]
    · have hm := b1.subset hp
      rw [hlate _ (by simpa using hx.begin_le p hm) (by simpa using b2 p hp), hc.vc p hm]
  · intro u a b
    exact hlate _ (by simpa using a) (by simpa using b)
  · intro u a b
    rcases b.lt_or_eq with b | b
    · exact hearly _ (by simpa using a) (by simpa using b)
    · rw [b, hbv]

/-! ## Temporal operators -/

theorem Top.sup {x : Signal} {s e u w : ℚ} {B v : ℚ} {f : ℚ → EReal} (hx : Node B x s e)
    (hf : Is x u w f) (hu : s ≤ u) (hw : w ≤ e) (h : Top x.v (pl u) (pl w) v) :
    ⨆ r ∈ Set.Icc u w, f r = er v := by
  refine le_antisymm (iSup₂_le fun r hr => ?_) ?_
  · rw [hf r hr.1 hr.2, er_le]
    exact h.2 _ (by simpa using hr.1) (by simpa using hr.2)
  · obtain ⟨σ, h1, h2, h3⟩ := h.1
    have key : ∀ r, u ≤ r → r ≤ w → x.v (pl r) = v → er v ≤ ⨆ r ∈ Set.Icc u w, f r := by
      intro r a b c
      rw [← c, ← hf r a b]
      exact le_iSup₂_of_le r ⟨a, b⟩ le_rfl
    rcases Pt.cases σ with e | e
    · rw [e] at h1 h2 h3
      exact key _ (by simpa using h1) (by simpa using h2) h3
    · rw [e] at h1 h2 h3
      rw [pl_le_mi] at h1
      rw [le_pl_iff, mi_time] at h2
      refine key _ h1.le h2 ?_
      rw [← h3, hx.cg.cts _ (by rw [hx.b]; exact hu.trans_lt h1) (by rw [hx.e]; exact h2.trans hw)]

theorem Bot.inf {x : Signal} {s e u w : ℚ} {B v : ℚ} {f : ℚ → EReal} (hx : Node B x s e)
    (hf : Is x u w f) (hu : s ≤ u) (hw : w ≤ e) (h : Bot x.v (pl u) (pl w) v) :
    ⨅ r ∈ Set.Icc u w, f r = er v := by
  refine le_antisymm ?_ (le_iInf₂ fun r hr => ?_)
  · obtain ⟨σ, h1, h2, h3⟩ := h.1
    have key : ∀ r, u ≤ r → r ≤ w → x.v (pl r) = v → ⨅ r ∈ Set.Icc u w, f r ≤ er v := by
      intro r a b c
      rw [← c, ← hf r a b]
      exact iInf₂_le_of_le r ⟨a, b⟩ le_rfl
    rcases Pt.cases σ with e | e
    · rw [e] at h1 h2 h3
      exact key _ (by simpa using h1) (by simpa using h2) h3
    · rw [e] at h1 h2 h3
      rw [pl_le_mi] at h1
      rw [le_pl_iff, mi_time] at h2
      refine key _ h1.le h2 ?_
      rw [← h3, hx.cg.cts _ (by rw [hx.b]; exact hu.trans_lt h1) (by rw [hx.e]; exact h2.trans hw)]
  · rw [hf r hr.1 hr.2, er_le]
    exact h.2 _ (by simpa using hr.1) (by simpa using hr.2)

/-- A function that bends gives a signal that can be cut. -/
theorem keeps_of_bends {x : Signal} {s c e B : ℚ} {f : ℚ → EReal} (hx : Node B x s e)
    (hf : Is x s e f) (h : Bends f s c e) : KeepsSlope x c := by
  by_cases hk : ∃ p ∈ x.samples, c ≤ p.time
  · exact Or.inr (Or.inl hk)
  · obtain ⟨p, hp, hpc⟩ := getLast_lt_of hx.wf.wfb hk
    refine Or.inr (Or.inr fun q hq => ?_)
    rw [hp] at hq
    obtain rfl := Option.some.inj hq
    have hm : p ∈ x.samples := List.mem_of_getLast? hp
    have hs : s ≤ p.time := by rw [← hx.b]; exact hx.wf.begin_le p hm
    refine h p.time p.value p.derivative hs hpc fun t a b => ?_
    rw [hf t (hs.trans a) b]
    congr 1
    apply Signal.v_of_val
    rw [val, val_append_last hp (by simpa using a)]
    rfl

theorem Node.tev {old x : Signal} {B a b s e : ℚ} (hx : Node B x s e) (ha : 0 ≤ a) (hab : a ≤ b)
    (hk : s + (b - a) < e → a < b → KeepsSlope x (s + (b - a))) :
    ∃ z, computeTimedEventually B old x a b = .ok z ∧ Node B z (s - a) (e - a) ∧
      ∀ t, s - a ≤ t → t ≤ e - a → Top x.v (pl (t + a)) (pl (min (t + b) e)) (z.v (pl t)) := by
  have hse := hx.le
  obtain ⟨z, h1, h2, h3, h4, h5, h6⟩ := computeTimedEventually_spec (B := B) (old := old) hx.wf
    (Or.inr hx.cg) ha hab (by rw [hx.b, hx.e]; exact hk)
    (fun σ c d => (hx.bdp (by rw [← hx.b]; exact c) (by rw [← hx.e]; exact d)).1)
  rw [hx.b] at h2
  rw [hx.e] at h3
  have hT : ∀ t, s - a ≤ t → t ≤ e - a →
      Top x.v (pl (t + a)) (pl (min (t + b) e)) (z.v (pl t)) := by
    intro t c d
    have := h5 (pl t) (by rw [h2]; simpa using c) (by rw [h3]; simpa using d) (fun g g' => Or.inr ?_)
    · have e1 : min ((pl t).shift b) (pl x.endTime) = pl (min (t + b) e) := by
        rw [hx.e]
        rcases le_total (t + b) e with h | h
        · rw [min_eq_left h, min_eq_left (by simpa using h)]; simp
        · rw [min_eq_right h, min_eq_right (by simpa using h)]
      rw [e1] at this
      simpa using this
    · exact hx.cg.cts _ (by linarith [sub_pos.2 g']) le_rfl
  refine ⟨z, h1, ⟨h2, h3, h4.1, h6 hx.cg, fun t c d => ?_⟩, hT⟩
  obtain ⟨σ, k1, k2, k3⟩ := (hT t c d).1
  rw [← k3]
  refine hx.bdp (le_trans (by rw [pl_le_pl]; linarith) k1) (k2.trans ?_)
  rw [pl_le_pl]
  exact min_le_right _ _

theorem Node.talw {old x : Signal} {B a b s e : ℚ} (hx : Node B x s e) (ha : 0 ≤ a) (hab : a ≤ b)
    (hk : s + (b - a) < e → a < b → KeepsSlope x (s + (b - a))) :
    ∃ z, computeTimedGlobally B old x a b = .ok z ∧ Node B z (s - a) (e - a) ∧
      ∀ t, s - a ≤ t → t ≤ e - a → Bot x.v (pl (t + a)) (pl (min (t + b) e)) (z.v (pl t)) := by
  have hse := hx.le
  obtain ⟨z, h1, h2, h3, h4, h5, h6⟩ := computeTimedGlobally_spec (B := B) (old := old) hx.wf
    (Or.inr hx.cg) ha hab (by rw [hx.b, hx.e]; exact hk)
    (fun σ c d => (hx.bdp (by rw [← hx.b]; exact c) (by rw [← hx.e]; exact d)).2)
  rw [hx.b] at h2
  rw [hx.e] at h3
  have hT : ∀ t, s - a ≤ t → t ≤ e - a →
      Bot x.v (pl (t + a)) (pl (min (t + b) e)) (z.v (pl t)) := by
    intro t c d
    have := h5 (pl t) (by rw [h2]; simpa using c) (by rw [h3]; simpa using d) (fun g g' => Or.inr ?_)
    · have e1 : min ((pl t).shift b) (pl x.endTime) = pl (min (t + b) e) := by
        rw [hx.e]
        rcases le_total (t + b) e with h | h
        · rw [min_eq_left h, min_eq_left (by simpa using h)]; simp
        · rw [min_eq_right h, min_eq_right (by simpa using h)]
      rw [e1] at this
      simpa using this
    · exact hx.cg.cts _ (by linarith [sub_pos.2 g']) le_rfl
  refine ⟨z, h1, ⟨h2, h3, h4.1, h6 hx.cg, fun t c d => ?_⟩, hT⟩
  obtain ⟨σ, k1, k2, k3⟩ := (hT t c d).1
  rw [← k3]
  refine hx.bdp (le_trans (by rw [pl_le_pl]; linarith) k1) (k2.trans ?_)
  rw [pl_le_pl]
  exact min_le_right _ _

theorem Node.resize {x : Signal} {B s e u w : ℚ} (v : ℚ) (hx : Node B x s e) (h0 : s ≤ u)
    (huw : u ≤ w) (hw : w ≤ e) :
    ∃ z, Signal.resize x u w v = .ok z ∧ Node B z u w ∧
      (KeepsSlope x u → ∀ t, u ≤ t → t ≤ w → z.v (pl t) = x.v (pl t)) ∧
      (s = u → z.samples <+: x.samples) := by
  obtain ⟨z, h1, h2, h3, h4, h5, h6, h7, h8⟩ :=
    resize_cg v hx.wf hx.cg (by rw [hx.b]; exact h0) huw (by rw [hx.e]; exact hw)
  refine ⟨z, h1, ⟨h2, h3, h4, h5, fun t a b => ?_⟩, h6, fun h => h8 (by rw [hx.b]; exact h)⟩
  obtain ⟨r, r1, r2, r3⟩ := h7 t a b
  rw [r3]
  exact hx.bd r (by rw [← hx.b]; exact r1) (by rw [← hx.e]; exact r2)

theorem Node.keeps_begin {x : Signal} {B s e : ℚ} (hx : Node B x s e) : KeepsSlope x s :=
  Or.inl hx.b

theorem KeepsSlope.anti {x : Signal} {c c' : ℚ} (h : KeepsSlope x c) (h1 : c' ≤ c)
    (h2 : x.beginTime ≤ c') : KeepsSlope x c' := by
  rcases h with h | ⟨p, hp, h⟩ | h
  · exact Or.inl (le_antisymm h2 (h1.trans h.ge))
  · exact Or.inr (Or.inl ⟨p, hp, h1.trans h⟩)
  · exact Or.inr (Or.inr h)

/-- Samples after the new start stay. -/
theorem Node.resize_mem {x z : Signal} {B s e u w v : ℚ} (hx : Node B x s e) (h0 : s ≤ u)
    (huw : u ≤ w) (hw : w ≤ e) (hz : Signal.resize x u w v = .ok z) :
    ∀ p ∈ x.samples, u < p.time → p.time ≤ w → p ∈ z.samples := by
  intro p hp h1 h2
  obtain ⟨z', a1, _, _, _, _, _, _, _, a2, _⟩ := resize_inside v hx.wf.wfb (by rw [hx.b]; exact h0) huw
    (by rw [hx.e]; exact hw) (Or.inr (Or.inl ⟨p, hp, h1.le⟩))
  rw [hz] at a1
  obtain rfl := Except.ok.inj a1
  exact a2 p hp h1 h2

/-- Where a signal kept its slope it still does after trimming from the front. -/
theorem Node.resize_keeps {x z : Signal} {B s e u v c : ℚ} (hx : Node B x s e) (h0 : s ≤ u)
    (hue : u ≤ e) (hz : Signal.resize x u e v = .ok z) (huc : u ≤ c) (hce : c ≤ e)
    (hk : KeepsSlope x c) : KeepsSlope z c := by
  obtain ⟨z', a1, a2, a3, a4⟩ := hx.resize v h0 hue le_rfl
  rw [hz] at a1
  obtain rfl := Except.ok.inj a1
  by_cases hkx : ∃ p ∈ x.samples, c ≤ p.time
  · obtain ⟨p, hp, h⟩ := hkx
    rcases huc.lt_or_eq with h' | h'
    · exact Or.inr (Or.inl ⟨p, hx.resize_mem h0 hue le_rfl hz p hp (by linarith)
        (by rw [← hx.e]; exact hx.wf.le_end p hp), h⟩)
    · exact Or.inl (by rw [a2.b, h'])
  obtain ⟨q, hq, hqc⟩ := getLast_lt_of hx.wf.wfb hkx
  have hx0 : KeepsSlope x u := hk.anti huc (by rw [hx.b]; exact h0)
  rcases hk with h | h | h
  · rw [hx.b] at h
    exact Or.inl (by rw [a2.b]; linarith)
  · exact absurd h hkx
  · refine keeps_of_bends (f := fun t => er (x.v (pl t))) a2 (fun t c' d => ?_) ?_
    · rw [a3 hx0 t c' d]
    · intro r v' d h1 h2 h3
      have hv : ∀ t, q.time ≤ t → x.v (pl t) = q.value := by
        intro t ht
        apply Signal.v_of_val
        rw [val, val_append_last hq (by simpa using ht)]
        simp [Sample.valueAt, h q hq]
      have hm : max r q.time < c := max_lt h2 hqc
      have e1 := er_inj (h3 (max r q.time) (le_max_left _ _) (by linarith))
      have e2 := er_inj (h3 e (by linarith) le_rfl)
      rw [hv _ (le_max_right _ _)] at e1
      rw [hv _ (by linarith)] at e2
      have : d * (e - max r q.time) = 0 := by linarith
      rcases mul_eq_zero.1 this with h | h
      · exact h
      · linarith

/-- Shortening or extending from the front and shortening from the back. -/
theorem Node.resize_any {x : Signal} {B s e u w : ℚ} (v : ℚ) (hx : Node B x s e)
    (huw : u ≤ w) (hsw : s ≤ w) (hw : w ≤ e) :
    ∃ z, Signal.resize x u w v = .ok z ∧ Node B z u w ∧
      (s ≤ u → KeepsSlope x u → ∀ t, u ≤ t → t ≤ w → z.v (pl t) = x.v (pl t)) ∧
      (u < s → (∀ t, s ≤ t → t ≤ w → z.v (pl t) = x.v (pl t)) ∧
        (∀ t, u ≤ t → t ≤ s → z.v (pl t) = x.v (pl s)) ∧
        (w = e → ∀ c, KeepsSlope x c → KeepsSlope z c)) := by
  rcases le_or_gt s u with h | h
  · obtain ⟨z, h1, h2, h3, _⟩ := hx.resize v h huw hw
    exact ⟨z, h1, h2, fun _ => h3, fun h' => absurd h (not_le.2 h')⟩
  · obtain ⟨z, h1, h2, h3, h4, h5, h6, h7, p, hp, h8⟩ := resize_ext (s := u) (t := w) v hx.wf hx.cg
      (by rw [hx.b]; exact h) (by rw [hx.b]; exact hsw) (by rw [hx.e]; exact hw)
    rw [hx.b] at h6 h7
    refine ⟨z, h1, ⟨h2, h3, h4, h5, fun t a b => ?_⟩, fun h' => absurd h (not_lt.2 h'),
      fun _ => ⟨h6, h7, ?_⟩⟩
    · rcases le_total s t with k | k
      · rw [h6 t k b]; exact hx.bd t k (b.trans hw)
      · rw [h7 t a k]; exact hx.bd s le_rfl (hsw.trans hw)
    · rintro rfl c hc
      have ht : trimBack w x.samples = x.samples := by
        obtain ⟨b1, b2, b3, b4, b5⟩ := trimBack_spec w x.samples hx.wf.sorted
        obtain ⟨suf, hs⟩ := b4
        have : suf = [] := by
          rcases List.eq_nil_or_concat suf with h | ⟨m, q, h⟩
          · exact h
          · exfalso
            unfold trimBack at hs
            have hq : x.samples.reverse.head? = some q := by
              rw [← hs, h]; simp
            cases hr : x.samples.reverse with
            | nil => rw [hr] at hq; simp at hq
            | cons q' m' =>
              rw [hr] at hs hq
              simp only [List.head?_cons, Option.some.injEq] at hq
              subst hq
              have hq' : q' ∈ x.samples := by rw [← List.mem_reverse, hr]; simp
              have := hx.wf.le_end q' hq'
              rw [hx.e] at this
              rw [List.dropWhile_cons_of_neg (by simpa using this)] at hs
              have hx' : x.samples = (q' :: m').reverse := by rw [← hr, List.reverse_reverse]
              rw [hx'] at hs
              have := congrArg List.length hs
              simp [h] at this
        rw [this] at hs
        simpa using hs
      rw [ht] at h8
      rcases hc with hc | ⟨q, hq, hc⟩ | hc
      · obtain ⟨f, l, hl, hf⟩ := hx.wf.exists_cons
        exact Or.inr (Or.inl ⟨f, by rw [h8, hl]; simp, by rw [hf, hc]⟩)
      · exact Or.inr (Or.inl ⟨q, by rw [h8]; simp [hq], hc⟩)
      · refine Or.inr (Or.inr fun q hq => hc q ?_)
        rw [h8, getLast?_cons' _ hx.wf.ne] at hq
        exact hq

theorem Node.vconst {z : Signal} {B s e u w : ℚ} (hz : Node B z s e) (hu : s ≤ u) (hw : w ≤ e)
    (h : ∀ t, u ≤ t → t ≤ w → z.v (pl t) = z.v (pl w)) {σ : Pt} (h1 : pl u ≤ σ) (h2 : σ ≤ pl w) :
    z.v σ = z.v (pl w) := by
  rcases Pt.cases σ with e | e
  · rw [e] at h1 h2 ⊢
    exact h _ (by simpa using h1) (by simpa using h2)
  · rw [e] at h1 h2 ⊢
    rw [pl_le_mi] at h1
    rw [le_pl_iff, mi_time] at h2
    rw [hz.cg.cts _ (by rw [hz.b]; exact hu.trans_lt h1) (by rw [hz.e]; exact h2.trans hw)]
    exact h _ h1.le h2

/-- The lower and upper bound computations of `ev` over an atom work on a copy `z` of the atom's
signal from `E - b` on. -/
theorem Node.ev_cut {old x z : Signal} {B a b S E : ℚ} {f : ℚ → EReal}
    (hx : Node B x (S + a) (E + b)) (hf : Is x (S + a) (E + b) f) (ha : 0 ≤ a) (hab : a ≤ b)
    (hSE : S ≤ E) (hz : Signal.resize x (E - b) (E + b) 0 = .ok z)
    (hk : a < b → KeepsSlope x (E - a)) :
    ∃ w, computeTimedEventually B old z a b = .ok w ∧ w.endTime = E + b - a ∧
      ∃ w', Signal.resize w S E 0 = .ok w' ∧ Node B w' S E ∧
        (E - b ≤ S + a → Is w' S E (fun t => ⨆ r ∈ Set.Icc (t + a) (t + b), f r)) := by
  obtain ⟨z', e1, hzN, hz1, hz2⟩ := hx.resize_any 0 (u := E - b) (w := E + b) (by linarith)
    (by linarith) le_rfl
  rw [hz] at e1
  obtain rfl := Except.ok.inj e1
  have hkz : a < b → KeepsSlope z (E - a) := by
    intro h
    rcases le_or_gt (S + a) (E - b) with h' | h'
    · exact hx.resize_keeps h' (by linarith) hz (by linarith) (by linarith) (hk h)
    · exact (hz2 h').2.2 rfl _ (hk h)
  obtain ⟨w, h1, h2, h3⟩ := hzN.tev (old := old) ha hab (fun _ h => by
    rw [show E - b + (b - a) = E - a by ring]
    exact hkz h)
  obtain ⟨w', r1, r2, r3, _⟩ := h2.resize_any 0 (u := S) (w := E) hSE (by linarith) (by linarith)
  refine ⟨w, h1, h2.e, w', r1, r2, fun hs => ?_⟩
  have hzx : ∀ t, S + a ≤ t → t ≤ E + b → z.v (pl t) = x.v (pl t) := by
    rcases hs.lt_or_eq with hs | hs
    · exact (hz2 hs).1
    · intro t c d
      exact hz1 hs.ge (Or.inl (by rw [hx.b, hs])) t (by linarith) d
  have hkw : KeepsSlope w S := by
    rcases hs.lt_or_eq with hs | hs
    · by_cases hq : ∃ p ∈ w.samples, S ≤ p.time
      · exact Or.inr (Or.inl hq)
      obtain ⟨q, hq, hqS⟩ := getLast_lt_of h2.wf.wfb hq
      refine Or.inr (Or.inr fun q' hq' => ?_)
      rw [hq] at hq'
      obtain rfl := Option.some.inj hq'
      have hqb : E - b - a ≤ q.time := by
        rw [← h2.b]; exact h2.wf.begin_le q (List.mem_of_getLast? hq)
      have hval : ∀ t, q.time ≤ t → w.v (pl t) = q.value + q.derivative * (t - q.time) := by
        intro t c
        apply Signal.v_of_val
        rw [val, val_append_last hq (by simpa using c)]
        rfl
      have hcon : ∀ σ, pl (E - b) ≤ σ → σ ≤ pl (S + a) → z.v σ = z.v (pl (S + a)) := by
        intro σ c d
        refine hzN.vconst le_rfl (by linarith) (fun t c' d' => ?_) c d
        rw [(hz2 hs).2.1 t c' d', (hz2 hs).2.1 (S + a) hs.le le_rfl]
      have T1 := h3 q.time (by linarith) (by linarith)
      have T2 := h3 S (by linarith) (by linarith)
      have hup : w.v (pl q.time) ≤ w.v (pl S) := by
        obtain ⟨σ, k1, k2, k3⟩ := T1.1
        rw [← k3]
        rcases le_total σ (pl (S + a)) with k | k
        · rw [hcon σ (le_trans (by rw [pl_le_pl]; linarith) k1) k]
          refine T2.2 _ le_rfl ?_
          rw [pl_le_pl]
          exact le_min (by linarith) (by linarith)
        · refine T2.2 σ k (k2.trans ?_)
          rw [pl_le_pl]
          exact min_le_min (by linarith) le_rfl
      have hd0 : 0 ≤ q.derivative := by
        rw [hval _ le_rfl, hval S hqS.le, sub_self, mul_zero, add_zero] at hup
        by_contra hd
        push Not at hd
        nlinarith
      rcases hab.lt_or_eq with hab' | hab'
      · have T3 := h3 E (by linarith) (by linarith)
        have T4 := h3 (E + b - a) (by linarith) (by linarith)
        have hdn : w.v (pl (E + b - a)) ≤ w.v (pl E) := by
          obtain ⟨σ, k1, k2, k3⟩ := T4.1
          rw [← k3]
          refine T3.2 σ (le_trans (by rw [pl_le_pl]; linarith) k1) (k2.trans ?_)
          rw [pl_le_pl]
          exact le_min (min_le_right _ _) (min_le_right _ _)
        rw [hval _ (by linarith), hval _ (by linarith)] at hdn
        by_contra hd
        have : 0 < q.derivative := lt_of_le_of_ne hd0 (Ne.symm hd)
        nlinarith
      · subst hab'
        rw [min_eq_left (by linarith)] at T1 T2
        have hs1 : ∀ {t v : ℚ}, Top z.v (pl t) (pl t) v → v = z.v (pl t) := by
          intro t v h
          obtain ⟨σ, k1, k2, k3⟩ := h.1
          rw [← k3, le_antisymm k2 k1]
        have e1 := hs1 T1
        have e2 := hs1 T2
        rw [hcon (pl (q.time + a)) (by rw [pl_le_pl]; linarith) (by rw [pl_le_pl]; linarith), ← e2,
          hval _ le_rfl, hval _ hqS.le, sub_self, mul_zero, add_zero] at e1
        have : q.derivative * (S - q.time) = 0 := by linarith
        rcases mul_eq_zero.1 this with h | h
        · exact h
        · linarith
    · exact Or.inl (by rw [h2.b]; linarith)
  intro t c d
  rw [r3 (by linarith) hkw t c d]
  have hT := h3 t (by linarith) (by linarith)
  rw [min_eq_left (by linarith)] at hT
  refine hT.sup hzN (fun r c' d' => ?_) (by linarith) (by linarith)
  rw [hzx r (by linarith) (by linarith)]
  exact hf r (by linarith) (by linarith)

/-- `ev` over a continuous operand. -/
theorem Node.evz {old x : Signal} {B a b S E : ℚ} {f : ℚ → EReal} (hx : Node B x (S + a) (E + b))
    (hf : Is x (S + a) (E + b) f) (ha : 0 ≤ a) (hab : a ≤ b) (hSE : S ≤ E)
    (hk : S < E → a < b → KeepsSlope x (S + b)) :
    ∃ z, computeTimedEventually B old x a b = .ok z ∧ z.endTime = E + b - a ∧
      ∃ z', Signal.resize z S E 0 = .ok z' ∧ Node B z' S E ∧
        Is z' S E (fun t => ⨆ r ∈ Set.Icc (t + a) (t + b), f r) := by
  obtain ⟨z, h1, h2, h3⟩ := hx.tev (old := old) ha hab (fun c d => by
    rw [show S + a + (b - a) = S + b by ring]
    exact hk (by linarith) d)
  rw [add_sub_cancel_right] at h2
  obtain ⟨z', r1, r2, r3, _⟩ := h2.resize 0 le_rfl hSE (w := E) (by linarith)
  refine ⟨z, h1, h2.e, z', r1, r2, fun t c d => ?_⟩
  rw [r3 h2.keeps_begin t c d]
  have hT := h3 t (by linarith) (by linarith)
  rw [min_eq_left (by linarith)] at hT
  exact hT.sup hx (fun r c d => hf r (by linarith) (by linarith)) (by linarith) (by linarith)

/-- `alw` over a continuous operand. -/
theorem Node.alwz {old x : Signal} {B a b S E : ℚ} {f : ℚ → EReal} (hx : Node B x (S + a) (E + b))
    (hf : Is x (S + a) (E + b) f) (ha : 0 ≤ a) (hab : a ≤ b) (hSE : S ≤ E)
    (hk : S < E → a < b → KeepsSlope x (S + b)) :
    ∃ z, computeTimedGlobally B old x a b = .ok z ∧ z.endTime = E + b - a ∧
      ∃ z', Signal.resize z S E 0 = .ok z' ∧ Node B z' S E ∧
        Is z' S E (fun t => ⨅ r ∈ Set.Icc (t + a) (t + b), f r) := by
  obtain ⟨z, h1, h2, h3⟩ := hx.talw (old := old) ha hab (fun c d => by
    rw [show S + a + (b - a) = S + b by ring]
    exact hk (by linarith) d)
  rw [add_sub_cancel_right] at h2
  obtain ⟨z', r1, r2, r3, _⟩ := h2.resize 0 le_rfl hSE (w := E) (by linarith)
  refine ⟨z, h1, h2.e, z', r1, r2, fun t c d => ?_⟩
  rw [r3 h2.keeps_begin t c d]
  have hT := h3 t (by linarith) (by linarith)
  rw [min_eq_left (by linarith)] at hT
  exact hT.inf hx (fun r c d => hf r (by linarith) (by linarith)) (by linarith) (by linarith)

end STLRom
