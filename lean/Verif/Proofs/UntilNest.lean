import Verif.Proofs.StepUntil
import Verif.Proofs.StepRob
import Verif.Proofs.StepPartial
import Verif.Spec.UntilNest

/-!
# `until` inside other operators on step signals
-/

namespace STLRom
open Signal Spec

/-- Values within the bound. -/
def Bd (B v : ℚ) : Prop := -B ≤ v ∧ v ≤ B

theorem vals_bd {B : ℚ} (h : 0 ≤ B) : Vals B (Bd B) :=
  ⟨⟨by linarith, le_rfl⟩, ⟨by linarith, h⟩, fun _ k => ⟨by linarith [k.2], by linarith [k.1]⟩⟩

theorem SNode.big {B : ℚ} {z : Signal} {S E : ℚ} (h : SNode B z S E) : 0 ≤ B := by
  have := h.bd S le_rfl h.le
  linarith [this.1, this.2]

theorem SNode.ins {B : ℚ} {z : Signal} {S E : ℚ} (h : SNode B z S E) (hSE : S < E) : SIn (Bd B) z := by
  intro p hp
  refine ⟨?_, h.flat hSE p hp⟩
  have hv : z.v (pl p.time) = p.value := by
    obtain ⟨l1, l2, hl⟩ := List.append_of_mem hp
    have hs := h.sinc
    rw [hl] at hs
    apply Signal.v_of_val
    have hc := val_cons_of_lt (p := p) (l := l2) (τ := pl p.time) (fun q hq => ?_) le_rfl
    · rw [hl]
      cases hd : cur (p :: l2) (pl p.time) with
      | none => rw [val, hd] at hc; simp at hc
      | some q =>
        rw [val, hd] at hc
        rw [val, cur_append, hd]
        simpa [Sample.valueAt] using hc
    · have := (List.pairwise_cons.1 (List.pairwise_append.1 hs).2.1).1 q hq
      simpa using this
  rw [← hv]
  have h1 := h.wf.begin_le p hp
  have h2 := h.wf.le_end p hp
  rw [h.b] at h1
  rw [h.e] at h2
  exact h.bd _ h1 h2

theorem snode_of_sin {B : ℚ} {z : Signal} {S E : ℚ} (hb : z.beginTime = S) (he : z.endTime = E) (hw : WF0 z)
    (hs : SInc z.samples) (hi : SIn (Bd B) z) : SNode B z S E := by
  refine ⟨hb, he, hw, hs, fun _ p hp => (hi p hp).2, fun t a _ => ?_⟩
  have hv := hw.val (τ := pl t) (by rw [hb]; simpa using a)
  rcases hc : cur z.samples (pl t) with _ | p
  · simp [val, hc] at hv
  · have hp := hi p (cur_mem hc).1
    simp only [val, hc, Option.map_some, Option.some.injEq] at hv
    rw [← hv, hp.at]
    exact hp.1

/-- The signal of a node: at least on the evaluation interval, exact there, and on nothing else
when the interval is a point. -/
structure Wide (B : ℚ) (z : Signal) (S E u K : ℚ) (f : ℚ → EReal) : Prop where
  node : SNode B z u K
  pos : 0 ≤ u
  lo : u ≤ S
  hi : E ≤ K
  is : Is z S E f
  pt : S = E → u = S ∧ K = E

theorem Wide.not {B : ℚ} {z : Signal} {S E u K : ℚ} {f : ℚ → EReal} (h : Wide B z S E u K f) :
    Wide B (computeNot z) S E u K (fun t => -f t) :=
  ⟨h.node.not, h.pos, h.lo, h.hi, h.is.not, h.pt⟩

theorem Wide.grow {B : ℚ} {z : Signal} {S E u K K' : ℚ} {f : ℚ → EReal} (h : Wide B z S E u K f) (hSE : S ≤ E)
    (hK : K ≤ K') (hp : S = E → K' = K) : Wide B { z with endTime := K' } S E u K' f := by
  rcases hSE.lt_or_eq with hlt | heq
  · have huK : u < K := lt_of_le_of_lt h.lo (hlt.trans_le h.hi)
    refine ⟨snode_of_sin h.node.b rfl ⟨h.node.wf.ne, h.node.wf.head, h.node.wf.sorted, fun q hq => ?_⟩
      h.node.sinc (h.node.ins huK), h.pos, h.lo, h.hi.trans hK, h.is, fun k => absurd k hlt.ne⟩
    have := h.node.wf.le_end q hq
    rw [h.node.e] at this
    exact this.trans hK
  · have : K' = K := hp heq
    subst this
    have e : ({ z with endTime := K' } : Signal) = z := by rw [← h.node.e]
    rw [e]
    exact h

theorem SNode.and_wide {B : ℚ} {x y : Signal} {u1 K1 u2 K2 : ℚ} (hx : SNode B x u1 K1) (hy : SNode B y u2 K2)
    (hlt : max u1 u2 < min K1 K2) :
    ∃ z, computeAndM x y = .ok z ∧ SNode B z (max u1 u2) (min K1 K2) ∧
      ∀ t, max u1 u2 ≤ t → t ≤ min K1 K2 →
        (t = min K1 K2 → x.v (mi t) = x.v (pl t) ∧ y.v (mi t) = y.v (pl t)) →
        z.v (pl t) = min (x.v (pl t)) (y.v (pl t)) := by
  have h1 : u1 < K1 := (le_max_left _ _).trans_lt (hlt.trans_le (min_le_left _ _))
  have h2 : u2 < K2 := (le_max_right _ _).trans_lt (hlt.trans_le (min_le_right _ _))
  have hlt' : max x.beginTime y.beginTime < min x.endTime y.endTime := by rw [hx.b, hy.b, hx.e, hy.e]; exact hlt
  obtain ⟨z, a1, a2⟩ := computeAndM_spec_lt hx.wf hy.wf hlt'
  rw [hx.b, hy.b, hx.e, hy.e] at a2
  obtain ⟨_, a4⟩ := computeAndM_step hx.wf hy.wf (hx.flat h1) (hy.flat h2) hx.sinc hy.sinc hlt' a1
  refine ⟨z, a1, snode_of_sin a2.begin_eq a2.end_eq a2.wf.toWF0 a4
    (computeAndM_in (hx.ins h1) (hy.ins h2) z a1), fun t a b hc => ?_⟩
  rcases b.lt_or_eq with b | rfl
  · exact a2.val _ (by simpa using a) (by simpa using b)
  · rw [a2.last hlt, a2.val _ (by simpa using hlt) le_rfl, (hc rfl).1, (hc rfl).2]

theorem Wide.andM {B : ℚ} {x y : Signal} {S E u1 K1 u2 K2 : ℚ} {f g : ℚ → EReal} (hx : Wide B x S E u1 K1 f)
    (hy : Wide B y S E u2 K2 g) (hSE : S ≤ E) (hf : Settles f S E) (hg : Settles g S E) :
    ∃ z u K, computeAndM x y = .ok z ∧ Wide B z S E u K (fun t => f t ⊓ g t) := by
  rcases hSE.lt_or_eq with hlt | heq
  · have hlt' : max u1 u2 < min K1 K2 :=
      lt_of_le_of_lt (max_le hx.lo hy.lo) (hlt.trans_le (le_min hx.hi hy.hi))
    obtain ⟨z, h1, h2, h3⟩ := hx.node.and_wide hy.node hlt'
    refine ⟨z, _, _, h1, h2, hx.pos.trans (le_max_left _ _), max_le hx.lo hy.lo, le_min hx.hi hy.hi, ?_,
      fun k => absurd k hlt.ne⟩
    refine Is.min hx.is hy.is fun t a b => ?_
    refine h3 t ((max_le hx.lo hy.lo).trans a) (b.trans (le_min hx.hi hy.hi)) fun k => ?_
    have : t = E := le_antisymm b (by rw [k]; exact le_min hx.hi hy.hi)
    subst this
    have st : ∀ {w : Signal} {u K : ℚ} {h : ℚ → EReal}, Wide B w S t u K h → Settles h S t →
        w.v (mi t) = w.v (pl t) := by
      intro w u K h hw hs
      obtain ⟨r, r1, r2, r3⟩ := hs hlt
      obtain ⟨q, q1, q2, q3⟩ := hw.node.left (hw.lo.trans r1) r2 hw.hi
      rw [← q3 q le_rfl q2]
      apply er_inj
      rw [← hw.is q (r1.trans q1) q2.le, ← hw.is t hlt.le le_rfl]
      exact r3 q q1 q2.le
    exact ⟨st hx hf, st hy hg⟩
  · obtain ⟨rfl, rfl⟩ := hx.pt heq
    obtain ⟨rfl, rfl⟩ := hy.pt heq
    obtain ⟨z, c1, c2, c3⟩ := hx.node.and hy.node (fun k => absurd heq k.ne) (fun k => absurd heq k.ne)
    exact ⟨z, _, _, c1, c2, hx.pos, le_rfl, le_rfl, Is.min hx.is hy.is c3, fun _ => ⟨rfl, rfl⟩⟩

theorem Wide.orM {B : ℚ} {x y : Signal} {S E u1 K1 u2 K2 : ℚ} {f g : ℚ → EReal} (hx : Wide B x S E u1 K1 f)
    (hy : Wide B y S E u2 K2 g) (hSE : S ≤ E) (hf : Settles f S E) (hg : Settles g S E) :
    ∃ z u K, computeOrM x y = .ok z ∧ Wide B z S E u K (fun t => f t ⊔ g t) := by
  obtain ⟨z, u, K, h1, h2⟩ := hx.not.andM hy.not hSE (Settles.not hf) (Settles.not hg)
  rw [computeAndM_not] at h1
  refine ⟨_, u, K, except_map_computeNot h1, ?_⟩
  have := h2.not
  refine ⟨this.node, this.pos, this.lo, this.hi, fun t a b => ?_, this.pt⟩
  rw [← this.is t a b]
  show f t ⊔ g t = -(-f t ⊓ -g t)
  rcases le_total (f t) (g t) with k | k
  · rw [sup_eq_right.2 k, inf_eq_right.2 (EReal.neg_le_neg_iff.2 k), neg_neg]
  · rw [sup_eq_left.2 k, inf_eq_left.2 (EReal.neg_le_neg_iff.2 k), neg_neg]

theorem Wide.andRob {B : ℚ} {x y : Signal} {S E u1 K1 u2 K2 : ℚ} {f g : ℚ → EReal} (hx : Wide B x S E u1 K1 f)
    (hy : Wide B y S E u2 K2 g) (hSE : S ≤ E) (hf : Settles f S E) (hg : Settles g S E) :
    ∃ z u K, Tr.andRob x y = .ok z ∧ Wide B z S E u K (fun t => f t ⊓ g t) := by
  unfold Tr.andRob
  rw [hx.node.e, hy.node.e]
  exact (hx.grow hSE (le_max_left _ _) fun k => by rw [(hx.pt k).2, (hy.pt k).2, max_self]).andM
    (hy.grow hSE (le_max_right _ _) fun k => by rw [(hx.pt k).2, (hy.pt k).2, max_self]) hSE hf hg

theorem Wide.orRob {B : ℚ} {x y : Signal} {S E u1 K1 u2 K2 : ℚ} {f g : ℚ → EReal} (hx : Wide B x S E u1 K1 f)
    (hy : Wide B y S E u2 K2 g) (hSE : S ≤ E) (hf : Settles f S E) (hg : Settles g S E) :
    ∃ z u K, Tr.orRob x y = .ok z ∧ Wide B z S E u K (fun t => f t ⊔ g t) := by
  unfold Tr.orRob
  rw [hx.node.e, hy.node.e]
  exact (hx.grow hSE (le_max_left _ _) fun k => by rw [(hx.pt k).2, (hy.pt k).2, max_self]).orM
    (hy.grow hSE (le_max_right _ _) fun k => by rw [(hx.pt k).2, (hy.pt k).2, max_self]) hSE hf hg

/-- From one-sided points to times: `until` over step functions on wider intervals. -/
theorem Wnt.sup_wide {x y : Signal} {B v t lo h u1 K1 u2 K2 : ℚ} {f g : ℚ → EReal} {H : Pt}
    (hx : SNode B x u1 K1) (hy : SNode B y u2 K2) (h1 : u1 ≤ t) (h2 : u2 ≤ lo) (k1 : h ≤ K1) (k2 : h ≤ K2)
    (hf : Is x t h f) (hg : Is y lo h g) (hH : H ≤ pl h) (hw : Wnt x.v y.v (pl t) (pl lo) H v) :
    ⨆ u ∈ {u : ℚ | lo ≤ u ∧ pl u ≤ H}, g u ⊓ ⨅ w ∈ Set.Icc t u, f w = er v := by
  have hle : ∀ {u : ℚ}, pl u ≤ H → u ≤ h := fun k => by simpa using k.trans hH
  refine le_antisymm (iSup₂_le fun u hu => ?_) ?_
  · by_contra hcon
    obtain ⟨q, c1, c2⟩ := EReal.lt_iff_exists_rat_btwn.1 (not_le.1 hcon)
    have c1' : v < q := by
      unfold er at c1
      exact_mod_cast c1
    have c2' : er q < g u ⊓ ⨅ w ∈ Set.Icc t u, f w := by unfold er; exact_mod_cast c2
    obtain ⟨c3, c4⟩ := lt_inf_iff.1 c2'
    have hyq : q ≤ y.v (pl u) := by
      rw [hg u hu.1 (hle hu.2)] at c3
      exact er_le.1 c3.le
    have hxq : ∀ w, t ≤ w → w ≤ u → q ≤ x.v (pl w) := by
      intro w a b
      have := c4.le.trans (iInf₂_le w ⟨a, b⟩)
      rw [hf w a (b.trans (hle hu.2))] at this
      exact er_le.1 this
    have hxp : ∀ ρ, pl t ≤ ρ → ρ ≤ pl u → q ≤ x.v ρ := by
      intro ρ a b
      rcases Pt.cases ρ with c | c
      · rw [c] at a b ⊢
        exact hxq _ (by simpa using a) (by simpa using b)
      · rw [c] at a b ⊢
        rw [pl_le_mi] at a
        rw [le_pl_iff, mi_time] at b
        obtain ⟨r, r1, r2, r3⟩ := hx.left h1 a (b.trans ((hle hu.2).trans k1))
        rw [← r3 r le_rfl r2]
        exact hxq _ r1 (r2.le.trans b)
    exact absurd (hw.2 (pl u) q (by simpa using hu.1) hu.2 hyq hxp) (not_le.2 c1')
  · obtain ⟨σ, c1, c2, c3, c4⟩ := hw.1
    have key : ∃ u, lo ≤ u ∧ pl u ≤ H ∧ v ≤ y.v (pl u) ∧ ∀ w, t ≤ w → w ≤ u → v ≤ x.v (pl w) := by
      rcases Pt.cases σ with c | c
      · rw [c] at c1 c2 c3 c4
        exact ⟨σ.time, by simpa using c1, c2, c3,
          fun w a b => c4 (pl w) (by simpa using a) (by simpa using b)⟩
      · rw [c] at c1 c2 c3 c4
        rw [pl_le_mi] at c1
        have c2' : σ.time ≤ h := by simpa using c2.trans hH
        obtain ⟨r, r1, r2, r3⟩ := hy.left h2 c1 (c2'.trans k2)
        refine ⟨r, r1, le_trans (by rw [pl_le_mi]; exact r2) c2, by rw [r3 r le_rfl r2]; exact c3, fun w a b => ?_⟩
        exact c4 (pl w) (by simpa using a) (by rw [pl_le_mi]; exact b.trans_lt r2)
    obtain ⟨u, e1, e2, e3, e4⟩ := key
    refine le_iSup₂_of_le u ⟨e1, e2⟩ (le_inf ?_ (le_iInf₂ fun w hw => ?_))
    · rw [hg _ e1 (hle e2), er_le]; exact e3
    · rw [hf _ hw.1 (hw.2.trans (hle e2)), er_le]; exact e4 w hw.1 hw.2

/-- `compute_timed_until` on two step signals, on an interval. -/
theorem timedUntil_wide {B a b S E u1 K1 u2 K2 : ℚ} {old x y : Signal} {f g : ℚ → EReal} (hSE : S < E)
    (ha : 0 ≤ a) (hab : a < b) (hx : Wide B x S (E + b) u1 K1 f) (hy : Wide B y (S + a) (E + b) u2 K2 g)
    (hg : Settles g (S + a) (E + b)) :
    ∃ z u K, computeTimedUntil B old x y a b = .ok z ∧ 0 ≤ u ∧ u ≤ S ∧ E < K ∧ SNode B z u K ∧
      Is z S E (fun t => ⨆ v ∈ Set.Icc (t + a) (t + b), g v ⊓ ⨅ w ∈ Set.Icc t v, f w) := by
  have nx := hx.node
  have ny := hy.node
  have x0 := hx.pos
  have x1 := hx.lo
  have x2 := hx.hi
  have y1 := hy.lo
  have y2 := hy.hi
  have lx : u1 < K1 := by linarith
  have ly : u2 < K2 := by linarith
  have hm : E + b ≤ min K1 K2 := le_min x2 y2
  have hlt : max x.beginTime y.beginTime < min x.endTime y.endTime := by
    rw [nx.b, ny.b, nx.e, ny.e]
    exact lt_of_lt_of_le (max_lt (by linarith) (by linarith)) hm
  have hBx : ∀ σ, pl x.beginTime ≤ σ → σ ≤ pl x.endTime → -B ≤ x.v σ ∧ x.v σ ≤ B :=
    fun σ h1 h2 => nx.bdp (by rw [← nx.b]; exact h1) (by rw [← nx.e]; exact h2)
  have hBy : ∀ σ, pl y.beginTime ≤ σ → σ ≤ pl y.endTime → -B ≤ y.v σ :=
    fun σ h1 h2 => (ny.bdp (by rw [← ny.b]; exact h1) (by rw [← ny.e]; exact h2)).1
  have fx := nx.flat lx
  have fy := ny.flat ly
  have hrc : RisesClear x y := fun p hp h _ => absurd (fx p hp) h.ne'
  obtain ⟨z, z1, z2, z3, z4, z5⟩ := computeTimedUntil_spec (B := B) (old := old) (a := a) (b := b)
    nx.wf ny.wf nx.sinc ny.sinc hlt hBx hBy hrc ha hab (by rw [nx.b]; exact x0)
    (by rw [nx.b, nx.e, ny.e]; linarith) (fun _ => by rw [ny.b, ny.e]; linarith)
    (fun _ => keepsSlope_flat fx _) (fun _ => keepsSlope_flat fy _)
  rw [nx.b, ny.b] at z2
  rw [nx.e, ny.e] at z3 z5
  have hsin := timedUntil_in (vals_bd nx.big) (nx.ins lx) (ny.ins ly) old a b z z1
  have hsinc : SInc z.samples := by
    unfold computeTimedUntil at z1
    rw [if_neg (by simp [nx.wf.ne, ny.wf.ne]), if_neg (by rw [nx.e, ny.e, not_lt]; linarith)] at z1
    unfold computeTimedUntilF at z1
    obtain ⟨w2, q2, z1⟩ := bind_eq_ok.1 z1
    obtain ⟨w3, q3, z1⟩ := bind_eq_ok.1 z1
    obtain ⟨w4, q4, z1⟩ := bind_eq_ok.1 z1
    obtain ⟨w2', p1, p2, p3, p4, -⟩ := computeBoundedEventually_spec (B := B) ny.wf (Or.inl ny.sinc)
      (a := b - a) (by linarith) (by rw [ny.b, ny.e]; linarith) (keepsSlope_flat fy _) hBy
    obtain rfl := Except.ok.inj (q2.symm.trans p1)
    obtain ⟨w3', r1, -, r3, r4, r5, -⟩ := computeUntil_spec nx.wf ny.wf nx.sinc ny.sinc hlt
      (fun σ c d => (hBx σ c d).1) hBy hrc
    obtain rfl := Except.ok.inj (q3.symm.trans r1)
    obtain ⟨f2, s2⟩ := computeBoundedEventually_step ny.wf ny.sinc fy (by linarith)
      (by rw [ny.b, ny.e]; linarith) hBy q2
    obtain ⟨f3, s3⟩ := computeUntil_step nx.wf ny.wf fx fy nx.sinc ny.sinc hlt q3
    have hlt4 : max w2.beginTime w3.beginTime < min w2.endTime w3.endTime := by
      rw [p2, p3, r3, r4, max_eq_right (le_max_right _ _), min_eq_right (min_le_right _ _)]
      exact hlt
    obtain ⟨w4', t1, t2⟩ := computeAnd_spec p4.toWF0 r5.toWF0 hlt4
    obtain rfl := Except.ok.inj (q4.symm.trans t1)
    rw [p2, p3, r3, r4, max_eq_right (le_max_right _ _), min_eq_right (min_le_right _ _)] at t2
    obtain ⟨f4, s4⟩ := computeAnd_step p4.toWF0 r5.toWF0 f2 f3 s2 s3 hlt4 q4
    have b4 := t2.begin_eq
    have e4 := t2.end_eq
    rw [nx.b, ny.b] at b4
    rw [nx.e, ny.e] at e4
    have hmax : max u1 u2 < min K1 K2 := by rw [nx.b, ny.b, nx.e, ny.e] at hlt; exact hlt
    split_ifs at z1 with h0
    · obtain ⟨w1, q1, z1⟩ := bind_eq_ok.1 z1
      obtain ⟨w1', o1, o2, o3, o4, -⟩ := computeBoundedGlobally_spec (B := B) nx.wf (Or.inl nx.sinc)
        (a := a) h0 (by rw [nx.b, nx.e]; linarith) (keepsSlope_flat fx _) (fun σ c d => (hBx σ c d).2)
      obtain rfl := Except.ok.inj (q1.symm.trans o1)
      obtain ⟨f1, s1⟩ := computeBoundedGlobally_step nx.wf nx.sinc fx h0 (by rw [nx.b, nx.e]; linarith)
        (fun σ c d => (hBx σ c d).2) q1
      have hl : max w1.beginTime (w4.shift (-a)).beginTime < min w1.endTime (w4.shift (-a)).endTime := by
        simp only [shift, o2, o3, b4, e4, nx.b, nx.e]
        refine max_lt (lt_min lx ?_) (lt_min ?_ ?_)
        · linarith
        · have : max u1 u2 < K1 := hmax.trans_le (min_le_left _ _)
          linarith
        · linarith
      exact (computeAnd_step o4.toWF0 (t2.wf.toWF0.shift _) f1 (f4.shift _) s1 (s4.shift _) hl z1).2
    · have hl : max x.beginTime w4.beginTime < min x.endTime w4.endTime := by
        rw [nx.b, nx.e, b4, e4]
        rw [max_eq_right (le_max_left _ _), min_eq_right (min_le_left _ _)]
        exact hmax
      exact (computeAnd_step nx.wf t2.wf.toWF0 fx f4 nx.sinc s4 hl z1).2
  have hbz : max u1 (max u1 u2 - a) ≤ S :=
    max_le x1 (by
      have : max u1 u2 ≤ S + a := max_le (by linarith) y1
      linarith)
  have hez : E < min K1 K2 - a := by linarith
  refine ⟨z, _, _, z1, x0.trans (le_max_left _ _), hbz, hez, snode_of_sin z2 z3 z4.toWF0 hsinc hsin,
    fun t c d => ?_⟩
  have hW := z5 t (by rw [z2]; exact hbz.trans c) (by rw [z3]; linarith)
  have fx' : Is x t (t + b) f := fun w p q => hx.is w (c.trans p) (by linarith)
  have gy' : Is y (t + a) (t + b) g := fun w p q => hy.is w (by linarith) (by linarith)
  have hsup := hW.sup_wide nx ny (x1.trans c) (by linarith) (h := t + b) (by linarith) (by linarith) fx' gy'
    (min_le_left _ _)
  rcases (show t + b ≤ min K1 K2 by linarith).lt_or_eq with hlt | heq
  · rw [min_eq_left (by rw [pl_le_mi]; exact hlt)] at hsup
    rw [← hsup]
    simp only [pl_le_pl, Set.Icc]
  · rw [← heq, min_eq_right (by simp)] at hsup
    rw [← hsup]
    have htE : t = E := by linarith
    subst htE
    refine le_antisymm (iSup₂_le fun v hv => ?_) (iSup₂_le fun v hv => ?_)
    · rcases hv.2.lt_or_eq with k | rfl
      · exact le_iSup₂_of_le v ⟨hv.1, by rw [pl_le_mi]; exact k⟩ le_rfl
      · obtain ⟨r, r1, r2, r3⟩ := hg (by linarith)
        refine le_iSup₂_of_le (max r (t + a)) ⟨le_max_right _ _, by rw [pl_le_mi]; exact max_lt r2 (by linarith)⟩
          (inf_le_inf ?_ ?_)
        · rw [r3 _ (le_max_left _ _) (max_le r2.le (by linarith))]
        · exact biInf_mono fun w hw => ⟨hw.1, hw.2.trans (max_le r2.le (by linarith))⟩
    · refine le_iSup₂_of_le v ⟨hv.1, ?_⟩ le_rfl
      have := hv.2
      rw [pl_le_mi] at this
      exact this.le

/-- `until_transducer::compute_robustness` on two step signals. -/
theorem Wide.untilRob {B a b S E u1 K1 u2 K2 : ℚ} {s : St} {x y : Signal} {f g : ℚ → EReal} (hSE : S < E)
    (ha : 0 ≤ a) (hab : a < b) (hx : Wide B x S (E + b) u1 K1 f) (hy : Wide B y (S + a) (E + b) u2 K2 g)
    (hg : Settles g (S + a) (E + b)) :
    ∃ z u K, Tr.untilRob B s a b x y = .ok z ∧
      Wide B z S E u K (fun t => ⨆ v ∈ Set.Icc (t + a) (t + b), g v ⊓ ⨅ w ∈ Set.Icc t v, f w) := by
  obtain ⟨z, u, K, h1, h2, h3, h4, h5, h6⟩ := timedUntil_wide (old := s.z) hSE ha hab hx hy hg
  have huK : u < K := by linarith
  obtain ⟨z', k1⟩ : ∃ z', Signal.resize z 0 K 0 = .ok z' := resize_total _ _ _ h5.wf.ne
  obtain ⟨k2, k3, -⟩ := h5.extend (h5.flat huK) h2 k1
  refine ⟨z', 0, K, ?_, k2, le_rfl, h2.trans h3, h4.le, fun t c d => ?_, fun k => absurd k hSE.ne⟩
  · unfold Tr.untilRob
    simp only [h1, bind, Except.bind, h5.e, k1]
  · rw [k3 t (h3.trans c) (d.trans h4.le)]
    exact h6 t c d

/-- The windows over a wider step signal. -/
theorem Wide.ev {B a b S E u K : ℚ} {s : St} {x : Signal} {f : ℚ → EReal} (hSE : S ≤ E) (h0 : 0 ≤ S)
    (ha : 0 ≤ a) (hab : a ≤ b) (hs : s.start = S) (he : s.stop = E) (hx : Wide B x (S + a) (E + b) u K f) :
    ∃ z zc, Tr.evRob B s a b x = .ok (z, zc) ∧
      Wide B z S E S E (fun t => ⨆ r ∈ Set.Icc (t + a) (t + b), f r) := by
  have hh := hx.hi
  obtain ⟨w, w1, w2, w3⟩ := hx.node.ev_pre (old := s.z) (S := S) (f := fun t => er (x.v (pl t))) hx.lo
    (fun t _ _ => rfl) ha hab
  obtain ⟨z, z1, z2, z3⟩ := w3 E hSE (by linarith) (fun k _ => Or.inl (by linarith))
  obtain ⟨zc, hzc⟩ : ∃ zc, Signal.resize x (E - b) x.endTime 0 = .ok zc :=
    resize_total _ _ _ hx.node.wf.ne
  refine ⟨z, zc, ?_, z2, h0, le_rfl, le_rfl, fun t c d => ?_, fun _ => ⟨rfl, rfl⟩⟩
  · unfold Tr.evRob
    simp only [w1, bind, Except.bind, w2, hs, he, min_eq_right (show E ≤ K - a by linarith), hzc,
      max_eq_right hSE, z1]
  · rw [← z3 t c d]
    simp only [min_eq_left (show t + b ≤ K by linarith)]
    exact biSup_congr fun r hr => hx.is r (by linarith [hr.1]) (by linarith [hr.2])

theorem Wide.alw {B a b S E u K : ℚ} {s : St} {x : Signal} {f : ℚ → EReal} (hSE : S ≤ E) (h0 : 0 ≤ S)
    (ha : 0 ≤ a) (hab : a ≤ b) (hs : s.start = S) (he : s.stop = E) (hx : Wide B x (S + a) (E + b) u K f) :
    ∃ z, Tr.alwRob B s a b x = .ok z ∧
      Wide B z S E S E (fun t => ⨅ r ∈ Set.Icc (t + a) (t + b), f r) := by
  have hh := hx.hi
  obtain ⟨w, w1, w2, w3⟩ := hx.node.alw_pre (old := s.z) (S := S) (f := fun t => er (x.v (pl t))) hx.lo
    (fun t _ _ => rfl) ha hab
  obtain ⟨z, z1, z2, z3⟩ := w3 E hSE (by linarith) (fun k _ => Or.inl (by linarith))
  refine ⟨z, ?_, z2, h0, le_rfl, le_rfl, fun t c d => ?_, fun _ => ⟨rfl, rfl⟩⟩
  · unfold Tr.alwRob
    simp only [w1, bind, Except.bind, w2, hs, he, min_eq_right (show E ≤ K - a by linarith),
      max_eq_right hSE, z1]
  · rw [← z3 t c d]
    simp only [min_eq_left (show t + b ≤ K by linarith)]
    exact biInf_congr fun r hr => hx.is r (by linarith [hr.1]) (by linarith [hr.2])

section
variable {env : Env} {n : ℕ}

/-- The robustness signal of any formula in PREVIOUS mode. -/
theorem rob_nest (hL : Prev env n) (hsem : env.sem = .SPACE) (T : Tr) : ∀ {S E : ℚ}, 0 ≤ S → S ≤ E →
    Covers env.data S (E + reach env.params T) → IsUntilFormula n env.params T →
    Fresh env.params S E T → NestOk env.data env.params S E T →
    AtomsWithin .PREVIOUS env.B env.data env.params S E T →
    ∃ T' v u K, Tr.computeRob env T = .ok (T', v) ∧
      Wide env.B T'.st.z S E u K (rob .PREVIOUS env.data env.params T) ∧ v = T'.st.z.v (pl u) := by
  induction T with
  | atom s k l r =>
    intro S E h0 hSE hc hF hf hk hB
    obtain ⟨T', v, a1, a2⟩ := atom_prev hL hsem (covers_mono hc le_rfl (by simp [reach])) (h0.trans hSE) hSE
      hF hf hk hB
    exact ⟨T', v, S, E, a1, ⟨a2.node, h0, le_rfl, le_rfl, a2.is, fun _ => ⟨rfl, rfl⟩⟩, a2.val⟩
  | not s c ih =>
    intro S E h0 hSE hc hF hf hk hB
    obtain ⟨c', v, u, K, a1, a2, _⟩ := ih h0 hSE hc hF hf.2 hk hB
    obtain ⟨p, hp, hpv⟩ := a2.not.node.front
    refine ⟨.not { s with z := computeNot c'.st.z } c', p.value, u, K, ?_, a2.not, hpv⟩
    simp only [Tr.computeRob, a1, bind, Except.bind, hp]
  | and s l r ih1 ih2 =>
    intro S E h0 hSE hc hF hf hk hB
    obtain ⟨l', v, _, _, a1, a2, _⟩ := ih1 h0 hSE (covers_mono hc le_rfl (by simp [reach])) hF.1 hf.2.1 hk.1 hB.1
    obtain ⟨r', w, _, _, b1, b2, _⟩ := ih2 h0 hSE (covers_mono hc le_rfl (by simp [reach])) hF.2 hf.2.2 hk.2.1 hB.2
    obtain ⟨z, u, K, c1, c2⟩ := a2.andRob b2 hSE hk.2.2.1 hk.2.2.2
    obtain ⟨p, hp, hpv⟩ := c2.node.front
    refine ⟨.and { s with z := z } l' r', p.value, u, K, ?_, c2, hpv⟩
    simp only [Tr.computeRob, a1, b1, bind, Except.bind, hp, c1]
  | or s l r ih1 ih2 =>
    intro S E h0 hSE hc hF hf hk hB
    obtain ⟨l', v, _, _, a1, a2, _⟩ := ih1 h0 hSE (covers_mono hc le_rfl (by simp [reach])) hF.1 hf.2.1 hk.1 hB.1
    obtain ⟨r', w, _, _, b1, b2, _⟩ := ih2 h0 hSE (covers_mono hc le_rfl (by simp [reach])) hF.2 hf.2.2 hk.2.1 hB.2
    obtain ⟨z, u, K, c1, c2⟩ := a2.orRob b2 hSE hk.2.2.1 hk.2.2.2
    obtain ⟨p, hp, hpv⟩ := c2.node.front
    refine ⟨.or { s with z := z } l' r', p.value, u, K, ?_, c2, hpv⟩
    simp only [Tr.computeRob, a1, b1, bind, Except.bind, hp, c1]
  | implies s l r ih1 ih2 =>
    intro S E h0 hSE hc hF hf hk hB
    obtain ⟨l', v, _, _, a1, a2, _⟩ := ih1 h0 hSE (covers_mono hc le_rfl (by simp [reach])) hF.1 hf.2.1 hk.1 hB.1
    obtain ⟨r', w, _, _, b1, b2, _⟩ := ih2 h0 hSE (covers_mono hc le_rfl (by simp [reach])) hF.2 hf.2.2 hk.2.1 hB.2
    obtain ⟨z, u, K, c1, c2⟩ := a2.not.orM b2 hSE (Settles.not hk.2.2.1) hk.2.2.2
    obtain ⟨p, hp, hpv⟩ := c2.node.front
    refine ⟨.implies { s with z := z } l' r', p.value, u, K, ?_, c2, hpv⟩
    simp only [Tr.computeRob, a1, b1, bind, Except.bind, hp, computeImpliesM, c1]
  | ev s I c ih =>
    intro S E h0 hSE hc hF hf hk hB
    obtain ⟨ha, hab, hFc⟩ := hF
    set a := bound env.params I.beginStr I.begin with hadef
    set b := bound env.params I.stopStr I.stop with hbdef
    obtain ⟨c', v, _, _, a1, a2, _⟩ := ih (S := S + a) (E := E + b) (by linarith) (by linarith)
      (covers_mono hc (by linarith) (by simp [reach, ← hbdef]; linarith)) hFc hf.2 hk hB
    obtain ⟨z, zc, b1, b2⟩ := a2.ev hSE h0 ha hab hf.1.1 hf.1.2.1
    obtain ⟨p, hp, hpv⟩ := b2.node.front
    refine ⟨.ev { s with z := z } I (Tr.setZ zc c'), p.value, S, E, ?_, b2, hpv⟩
    simp only [Tr.computeRob, a1, bind, Except.bind, ivA_eq, ivB_eq, ← hadef, ← hbdef, b1, hp]
  | alw s I c ih =>
    intro S E h0 hSE hc hF hf hk hB
    obtain ⟨ha, hab, hFc⟩ := hF
    set a := bound env.params I.beginStr I.begin with hadef
    set b := bound env.params I.stopStr I.stop with hbdef
    obtain ⟨c', v, _, _, a1, a2, _⟩ := ih (S := S + a) (E := E + b) (by linarith) (by linarith)
      (covers_mono hc (by linarith) (by simp [reach, ← hbdef]; linarith)) hFc hf.2 hk hB
    obtain ⟨z, b1, b2⟩ := a2.alw hSE h0 ha hab hf.1.1 hf.1.2.1
    obtain ⟨p, hp, hpv⟩ := b2.node.front
    refine ⟨.alw { s with z := z } I c', p.value, S, E, ?_, b2, hpv⟩
    simp only [Tr.computeRob, a1, bind, Except.bind, ivA_eq, ivB_eq, ← hadef, ← hbdef, b1, hp]
  | untl s l I r ih1 ih2 =>
    intro S E h0 hSE hc hF hf hk hB
    obtain ⟨ha, hab, hFl, hFr⟩ := hF
    obtain ⟨hlt, hkl, hkr, hst⟩ := hk
    set a := bound env.params I.beginStr I.begin with hadef
    set b := bound env.params I.stopStr I.stop with hbdef
    have m1 := le_max_left (reach env.params l) (reach env.params r)
    have m2 := le_max_right (reach env.params l) (reach env.params r)
    obtain ⟨l', v, _, _, a1, a2, _⟩ := ih1 (S := S) (E := E + b) h0 (by linarith)
      (covers_mono hc le_rfl (by simp only [reach, ← hbdef]; linarith)) hFl hf.2.1 hkl hB.1
    obtain ⟨r', w, _, _, b1, b2, _⟩ := ih2 (S := S + a) (E := E + b) (by linarith) (by linarith)
      (covers_mono hc (by linarith) (by simp only [reach, ← hbdef]; linarith)) hFr hf.2.2 hkr hB.2
    obtain ⟨z, u, K, c1, c2⟩ := Wide.untilRob (s := s) hlt ha hab a2 b2 hst
    obtain ⟨p, hp, hpv⟩ := c2.node.front
    refine ⟨.untl { s with z := z } l' I r', p.value, u, K, ?_, c2, hpv⟩
    simp only [Tr.computeRob, a1, b1, bind, Except.bind, ivA_eq, ivB_eq, ← hadef, ← hbdef, c1, hp]
  | _ => intro S E h0 hSE hc hF; exact hF.elim

end

theorem nestOk_forget (D : List (List ℚ)) (P : Assoc ℚ) :
    ∀ (T : Tr) (s e : ℚ), NestOk D P s e (T.forgetB false) ↔ NestOk D P s e T := by
  intro T
  induction T <;> intro s e <;> simp_all [Tr.forgetB, NestOk, isLeaf_forget, rob_forget]

theorem isUntilFormula_forget (n : ℕ) (P : Assoc ℚ) :
    ∀ (T : Tr), IsUntilFormula n P (T.forgetB false) ↔ IsUntilFormula n P T := by
  intro T
  induction T <;> simp_all [Tr.forgetB, IsUntilFormula, isExpr_forget]

/-- The result of an evaluation at one time of a formula with `until` inside temporal operators. -/
theorem evalRob_nest {g g' : Globals} {m m' : Monitor} {n : ℕ} {T : Tr} {t v : ℚ}
    (h : NestReady n g.B m T t) (hv : m.evalRob1 g t = (g', m', .ok v)) :
    rob .PREVIOUS m.data m.params T t = er v := by
  have hL : Prev (m.envOf g) n := ⟨h.interpol, h.rows⟩
  have hp : (Monitor.prepare m.params t t T).forgetB false = T.forgetB false :=
    Tr.forgetB_prepare (by simp [h.names]) t t T
  set T0 := Monitor.prepare m.params t t T with hT0
  obtain ⟨T1, w, u, K, a1, a2, a3⟩ := rob_nest hL h.sem T0 (S := t) (E := t) h.start le_rfl
    (by rw [← reach_forget, hp, reach_forget]; exact h.covers)
    (by rw [← isUntilFormula_forget, hp, isUntilFormula_forget]; exact h.shape)
    (fresh_prepare _ T t t)
    (by rw [← nestOk_forget, hp, nestOk_forget]; exact h.ok)
    (by rw [← atomsWithin_forget, hp, atomsWithin_forget]; exact h.within)
  have hw : rob .PREVIOUS m.data m.params T t = er w := by
    have := a2.is t le_rfl le_rfl
    rw [(a2.pt rfl).1] at a3
    rw [← a3] at this
    rw [← this, ← rob_forget, ← hp, rob_forget]
    rfl
  unfold Monitor.evalRob1 Monitor.evalRob at hv
  rw [h.formula] at hv
  simp only at hv
  split at hv
  · rename_i T' r lo up hr
    simp only [Monitor.run3, bind_eq_ok, Prod.exists] at hr
    obtain ⟨T1', w', k1, T2, lo', k2, T3, up', k3, k4⟩ := hr
    rw [show Tr.computeRob ⟨g.B, m.sem, m.ip, m.data, m.params⟩ (Monitor.prepare m.params t t T) = _ from a1] at k1
    simp only [Except.ok.injEq, Prod.mk.injEq] at k1 k4 hv
    rw [hw, k1.2, k4.2.1, hv.2.2]
  · simp at hv

end STLRom
