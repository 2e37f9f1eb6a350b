import Verif.Spec.UntilLin
import Verif.Proofs.UntilCts
import Verif.Proofs.UntilNest
import Verif.Proofs.LeftRun

/-!
# `until` below temporal operators, with LINEAR interpolation
-/

namespace STLRom
open Signal Spec

theorem computeAnd_cg {x y z : Signal} (hx : WF0 x) (hy : WF0 y) (cx : CG x) (cy : CG y)
    (hlt : max x.beginTime y.beginTime < min x.endTime y.endTime) (hz : computeAnd x y = .ok z) :
    CG z ∧ ∃ p ∈ z.samples, min x.endTime y.endTime ≤ p.time := by
  obtain ⟨z', h1, h2, h3, h4⟩ := computeAnd_spec' hx hy hlt (cg_andOk cx cy)
  obtain rfl := Except.ok.inj (hz.symm.trans h1)
  refine ⟨h2.cg hlt (fun t a b => cg_pair (g := min) cx cy t a b.le) h3 h4, ?_⟩
  simp only [computeAnd, fmin_eq, fmax_eq] at hz
  obtain ⟨_, _, hz⟩ := bind_eq_ok.1 hz
  obtain ⟨_, _, hz⟩ := bind_eq_ok.1 hz
  obtain ⟨_, _, hz⟩ := bind_eq_ok.1 hz
  exact simplify_mark hz

/-- `Wnt.sup` on signals that go on further. -/
theorem Wnt.sup_cts {x y : Signal} {v s lo e : ℚ} {f g : ℚ → EReal}
    (cx : ∀ t, s < t → t ≤ e → x.v (mi t) = x.v (pl t))
    (cy : ∀ t, lo < t → t ≤ e → y.v (mi t) = y.v (pl t)) (hs : s ≤ lo) (hlt : lo < e)
    (hf : Is x s e f) (hg : Is y lo e g) (h : Wnt x.v y.v (pl s) (pl lo) (mi e) v) :
    ⨆ u ∈ Set.Icc lo e, g u ⊓ ⨅ w ∈ Set.Icc s u, f w = er v := by
  refine le_antisymm (iSup₂_le fun u hu => ?_) ?_
  · by_contra hcon
    obtain ⟨q, h1, h2⟩ := EReal.lt_iff_exists_rat_btwn.1 (not_le.1 hcon)
    have h1' : v < q := by
      unfold er at h1
      exact_mod_cast h1
    have h2' : er q < g u ⊓ ⨅ w ∈ Set.Icc s u, f w := by unfold er; exact_mod_cast h2
    obtain ⟨h3, h4⟩ := lt_inf_iff.1 h2'
    have hyq : q ≤ y.v (pl u) := by
      rw [hg u hu.1 hu.2] at h3
      exact er_le.1 h3.le
    have hxq : ∀ w, s ≤ w → w ≤ u → q ≤ x.v (pl w) := by
      intro w a b
      have := h4.le.trans (iInf₂_le w ⟨a, b⟩)
      rw [hf w a (b.trans hu.2)] at this
      exact er_le.1 this
    have hxp : ∀ ρ, pl s ≤ ρ → ρ ≤ pl u → q ≤ x.v ρ := by
      intro ρ a b
      rcases Pt.cases ρ with c | c
      · rw [c] at a b ⊢
        exact hxq _ (by simpa using a) (by simpa using b)
      · rw [c] at a b ⊢
        rw [pl_le_mi] at a
        rw [le_pl_iff, mi_time] at b
        rw [cx _ a (b.trans hu.2)]
        exact hxq _ a.le b
    rcases hu.2.lt_or_eq with hue | hue
    · exact absurd (h.2 (pl u) q (by simpa using hu.1) (by simpa using hue) hyq hxp) (not_le.2 h1')
    · refine absurd (h.2 (mi u) q (by rw [pl_le_mi, hue]; exact hlt) (by rw [hue]) ?_ ?_) (not_le.2 h1')
      · rw [cy u (by rw [hue]; exact hlt) hu.2]; exact hyq
      · exact fun ρ a b => hxp ρ a (b.trans (by simp))
  · obtain ⟨σ, h1, h2, h3, h4⟩ := h.1
    have h2' : σ.time ≤ e := by
      have := h2.trans (show mi e ≤ pl e by simp)
      rwa [le_pl_iff] at this
    have key : lo ≤ σ.time ∧ v ≤ y.v (pl σ.time) ∧ ∀ w, s ≤ w → w ≤ σ.time → v ≤ x.v (pl w) := by
      rcases Pt.cases σ with c | c
      · rw [c] at h1 h3 h4
        exact ⟨by simpa using h1, h3, fun w a b => h4 (pl w) (by simpa using a) (by simpa using b)⟩
      · rw [c] at h1 h3 h4
        rw [pl_le_mi] at h1
        refine ⟨h1.le, by rw [← cy _ h1 h2']; exact h3, fun w a b => ?_⟩
        rcases b.lt_or_eq with b | b
        · exact h4 (pl w) (by simpa using a) (by simpa using b)
        · rw [b, ← cx _ (hs.trans_lt h1) h2']
          exact h4 _ (by rw [pl_le_mi]; exact hs.trans_lt h1) le_rfl
    obtain ⟨k1, k2, k3⟩ := key
    refine le_iSup₂_of_le σ.time ⟨k1, h2'⟩ (le_inf ?_ (le_iInf₂ fun w hw => ?_))
    · rw [hg _ k1 h2', er_le]; exact k2
    · rw [hf _ hw.1 (hw.2.trans h2'), er_le]; exact k3 w hw.1 hw.2

/-- `compute_timed_until` on two continuous signals, on an interval. -/
theorem timedUntil_lin {B a b S E : ℚ} {old x y : Signal} {f g : ℚ → EReal} (h0 : 0 ≤ S) (hSE : S < E)
    (ha : 0 ≤ a) (hab : a < b) (hx : Node B x S (E + b)) (hy : Node B y (S + a) (E + b))
    (ix : SInc x.samples) (iy : SInc y.samples) (hrc : RisesClear x y)
    (kx : 0 < a → KeepsSlope x (S + a)) (ky : KeepsSlope y (S + b))
    (hf : Is x S (E + b) f) (hg : Is y (S + a) (E + b) g) :
    ∃ z, computeTimedUntil B old x y a b = .ok z ∧ Node B z S (E + b - a) ∧
      (∃ p ∈ z.samples, E + b - a ≤ p.time) ∧
      Is z S E (fun t => ⨆ v ∈ Set.Icc (t + a) (t + b), g v ⊓ ⨅ w ∈ Set.Icc t v, f w) := by
  have hlt : max x.beginTime y.beginTime < min x.endTime y.endTime := by
    rw [hx.b, hy.b, hx.e, hy.e, min_self]
    exact max_lt (by linarith) (by linarith)
  have hBx : ∀ σ, pl x.beginTime ≤ σ → σ ≤ pl x.endTime → -B ≤ x.v σ ∧ x.v σ ≤ B :=
    fun σ h1 h2 => hx.bdp (by rw [← hx.b]; exact h1) (by rw [← hx.e]; exact h2)
  have hBy : ∀ σ, pl y.beginTime ≤ σ → σ ≤ pl y.endTime → -B ≤ y.v σ ∧ y.v σ ≤ B :=
    fun σ h1 h2 => hy.bdp (by rw [← hy.b]; exact h1) (by rw [← hy.e]; exact h2)
  have ky' : KeepsSlope y (y.beginTime + (b - a)) := by
    rw [hy.b, show S + a + (b - a) = S + b by ring]; exact ky
  have kx' : 0 < a → KeepsSlope x (x.beginTime + a) := by rw [hx.b]; exact kx
  obtain ⟨z, z1, z2, z3, z4, z5⟩ := computeTimedUntil_spec (B := B) (old := old) (a := a) (b := b)
    hx.wf hy.wf ix iy hlt hBx (fun σ c d => (hBy σ c d).1) hrc ha hab (by rw [hx.b]; exact h0)
    (by rw [hx.b, hx.e, hy.e, min_self]; linarith) (fun _ => by rw [hy.b, hy.e]; linarith)
    kx' (fun _ => ky')
  rw [hx.b, hy.b, max_eq_right (show S ≤ S + a by linarith), add_sub_cancel_right, max_self] at z2
  rw [hx.e, hy.e, min_self] at z3 z5
  have hcg : CG z ∧ ∃ p ∈ z.samples, E + b - a ≤ p.time := by
    have z1' := z1
    unfold computeTimedUntil at z1'
    rw [if_neg (by simp [hx.wf.ne, hy.wf.ne]), if_neg (by rw [hx.e, hy.e, min_self, not_lt]; linarith)] at z1'
    unfold computeTimedUntilF at z1'
    obtain ⟨w2, q2, z1'⟩ := bind_eq_ok.1 z1'
    obtain ⟨w3, q3, z1'⟩ := bind_eq_ok.1 z1'
    obtain ⟨w4, q4, z1'⟩ := bind_eq_ok.1 z1'
    obtain ⟨w2', p1, p2, p3, p4, -, -, p5⟩ := computeBoundedEventually_spec (B := B) hy.wf (Or.inl iy)
      (a := b - a) (by linarith) (by rw [hy.b, hy.e]; linarith) ky' (fun σ c d => (hBy σ c d).1)
    obtain rfl := Except.ok.inj (q2.symm.trans p1)
    obtain ⟨w3', r1, -, r3, r4, r5, -⟩ := computeUntil_spec hx.wf hy.wf ix iy hlt
      (fun σ c d => (hBx σ c d).1) (fun σ c d => (hBy σ c d).1) hrc
    obtain rfl := Except.ok.inj (q3.symm.trans r1)
    have c3 := computeUntil_cg hx.wf hy.wf ix iy hlt (fun σ c d => (hBx σ c d).1) (fun σ c d => (hBy σ c d).1)
      hrc hx.cg hy.cg q3
    have hlt4 : max w2.beginTime w3.beginTime < min w2.endTime w3.endTime := by
      rw [p2, p3, r3, r4, max_eq_right (le_max_right _ _), min_eq_right (min_le_right _ _)]
      exact hlt
    obtain ⟨w4', t1, t2⟩ := computeAnd_spec p4.toWF0 r5.toWF0 hlt4
    obtain rfl := Except.ok.inj (q4.symm.trans t1)
    rw [p2, p3, r3, r4, max_eq_right (le_max_right _ _), min_eq_right (min_le_right _ _)] at t2
    obtain ⟨c4, -⟩ := computeAnd_cg p4.toWF0 r5.toWF0 (p5 hy.cg) c3 hlt4 q4
    have b4 := t2.begin_eq
    have e4 := t2.end_eq
    rw [hx.b, hy.b, max_eq_right (show S ≤ S + a by linarith)] at b4
    rw [hx.e, hy.e, min_self] at e4
    split_ifs at z1' with ha0
    · obtain ⟨w1, q1, z1'⟩ := bind_eq_ok.1 z1'
      obtain ⟨w1', o1, o2, o3, o4, -, -, o5⟩ := computeBoundedGlobally_spec (B := B) hx.wf (Or.inl ix)
        (a := a) ha0 (by rw [hx.b, hx.e]; linarith) (kx' ha0) (fun σ c d => (hBx σ c d).2)
      obtain rfl := Except.ok.inj (q1.symm.trans o1)
      have hm : min w1.endTime (w4.shift (-a)).endTime = E + b - a := by
        simp only [shift, o3, e4, hx.e]
        rw [min_eq_right (by linarith)]
        ring
      have hl : max w1.beginTime (w4.shift (-a)).beginTime < min w1.endTime (w4.shift (-a)).endTime := by
        rw [hm]
        simp only [shift, o2, b4, hx.b]
        exact max_lt (by linarith) (by linarith)
      have := computeAnd_cg o4.toWF0 (t2.wf.toWF0.shift _) (o5 hx.cg) (c4.shift _) hl z1'
      rwa [hm] at this
    · have ha' : a = 0 := le_antisymm (not_lt.1 ha0) ha
      have hm : min x.endTime w4.endTime = E + b - a := by rw [hx.e, e4, min_self, ha', sub_zero]
      have hl : max x.beginTime w4.beginTime < min x.endTime w4.endTime := by
        rw [hm, hx.b, b4]
        exact max_lt (by linarith) (by linarith)
      have := computeAnd_cg hx.wf t2.wf.toWF0 hx.cg c4 hl z1'
      rwa [hm] at this
  have hbd : ∀ t, S ≤ t → t < E + b - a → -B ≤ z.v (pl t) ∧ z.v (pl t) ≤ B := by
    intro t c d
    have hW := z5 t (by rw [z2]; exact c) (by rw [z3]; exact d)
    have hhi : pl (t + a) ≤ min (pl (t + b)) (mi (E + b)) := le_min (by simpa using hab.le) (by
      rw [pl_le_mi]; linarith)
    have hH : ∀ {σ}, σ ≤ min (pl (t + b)) (mi (E + b)) → σ ≤ pl (E + b) := fun h =>
      h.trans ((min_le_right _ _).trans (by simp))
    constructor
    · exact hW.2 (pl (t + a)) (-B) le_rfl hhi
        (hBy _ (by rw [hy.b, pl_le_pl]; linarith) (by rw [hy.e]; exact hH hhi)).1
        fun ρ p q => (hBx _ (by rw [hx.b]; exact le_trans (by rw [pl_le_pl]; exact c) p)
          (by rw [hx.e]; exact q.trans (hH hhi))).1
    · obtain ⟨σ, k1, k2, k3, -⟩ := hW.1
      exact k3.trans (hBy σ (by rw [hy.b]; exact le_trans (by rw [pl_le_pl]; linarith) k1)
        (by rw [hy.e]; exact hH k2)).2
  have hend : z.v (mi (E + b - a)) = z.v (pl (E + b - a)) :=
    hcg.1.cts _ (by rw [z2]; linarith) z3.ge
  have hlast : -B ≤ z.v (pl (E + b - a)) ∧ z.v (pl (E + b - a)) ≤ B :=
    ⟨open_ge z4.toWF0 z2.le (show S < E + b - a by linarith) hend (fun u c d => (hbd u c d).1)
        (by rw [pl_le_pl]; linarith) le_rfl,
      open_le z4.toWF0 z2.le (show S < E + b - a by linarith) hend (fun u c d => (hbd u c d).2)
        (by rw [pl_le_pl]; linarith) le_rfl⟩
  refine ⟨z, z1, ⟨z2, z3, z4.toWF0, hcg.1, fun t c d => ?_⟩, hcg.2, fun t c d => ?_⟩
  · rcases d.lt_or_eq with d | rfl
    · exact hbd t c d
    · exact hlast
  · have hW := z5 t (by rw [z2]; exact c) (by rw [z3]; linarith)
    have hW' : Wnt x.v y.v (pl t) (pl (t + a)) (mi (t + b)) (z.v (pl t)) := by
      refine ⟨?_, fun σ w p q r s => hW.2 σ w p (le_min (q.trans (by simp)) (q.trans ?_)) r s⟩
      · obtain ⟨σ, k1, k2, k3, k4⟩ := hW.1
        rcases le_or_gt σ (mi (t + b)) with h | h
        · exact ⟨σ, k1, h, k3, k4⟩
        · have hσ : σ = pl (t + b) := by
            refine le_antisymm (k2.trans (min_le_left _ _)) ?_
            rcases Pt.cases σ with e | e <;> rw [e] at h ⊢
            · rw [mi_lt_pl] at h; simpa using h
            · rw [mi_lt_mi] at h; rw [pl_le_mi]; exact h
          have hEb : t + b < E + b := by
            have := k2.trans (min_le_right _ _)
            rw [hσ, pl_le_mi] at this
            exact this
          subst hσ
          refine ⟨mi (t + b), by rw [pl_le_mi]; linarith, le_rfl, ?_, fun ρ p q => k4 ρ p (q.trans (by simp))⟩
          rw [hy.cg.cts _ (by rw [hy.b]; linarith) (by rw [hy.e]; exact hEb.le)]
          exact k3
      · rcases d.lt_or_eq with d | rfl
        · exact le_of_lt (by rw [mi_lt_mi]; linarith)
        · exact le_rfl
    exact (hW'.sup_cts (f := f) (g := g)
      (fun r p q => hx.cg.cts r (by rw [hx.b]; linarith) (by rw [hx.e]; linarith))
      (fun r p q => hy.cg.cts r (by rw [hy.b]; linarith) (by rw [hy.e]; linarith))
      (by linarith) (by linarith) (fun r p q => hf r (by linarith) (by linarith))
      (fun r p q => hg r (by linarith) (by linarith)))

/-- `until_transducer::compute_robustness` on two continuous signals. -/
theorem untilRob_lin {B a b S E : ℚ} {s : St} {x y : Signal} {f g : ℚ → EReal} (h0 : 0 ≤ S) (hSE : S < E)
    (ha : 0 ≤ a) (hab : a < b) (hx : Node B x S (E + b)) (hy : Node B y (S + a) (E + b))
    (ix : SInc x.samples) (iy : SInc y.samples) (hrc : RisesClear x y)
    (kx : 0 < a → KeepsSlope x (S + a)) (ky : KeepsSlope y (S + b))
    (hf : Is x S (E + b) f) (hg : Is y (S + a) (E + b) g) :
    ∃ z, Tr.untilRob B s a b x y = .ok z ∧ Node B z 0 (E + b - a) ∧
      (∃ p ∈ z.samples, E + b - a ≤ p.time) ∧
      Is z S E (fun t => ⨆ v ∈ Set.Icc (t + a) (t + b), g v ⊓ ⨅ w ∈ Set.Icc t v, f w) := by
  obtain ⟨z, h1, h2, ⟨p, hp, hpK⟩, h4⟩ := timedUntil_lin (old := s.z) h0 hSE ha hab hx hy ix iy hrc kx ky hf hg
  have hpe : p.time ≤ E + b - a := by rw [← h2.e]; exact h2.wf.le_end p hp
  have run : ∀ z', Signal.resize z 0 (E + b - a) 0 = .ok z' → Tr.untilRob B s a b x y = .ok z' := fun z' k => by
    unfold Tr.untilRob
    simp only [h1, bind, Except.bind, h2.e, k]
  rcases h0.lt_or_eq with h0 | rfl
  · obtain ⟨z', k1, k2, k3, k4, k5, k6, k7, q, k8, k9⟩ := resize_ext 0 h2.wf h2.cg (s := 0) (t := E + b - a)
      (by rw [h2.b]; exact h0) (by rw [h2.b]; linarith) h2.e.ge
    rw [h2.b] at k6 k7
    refine ⟨z', run z' k1, ⟨k2, k3, k4, k5, fun t c d => ?_⟩, ⟨p, ?_, hpK⟩, fun t c d => ?_⟩
    · rcases le_total S t with h | h
      · rw [k6 t h d]; exact h2.bd t h d
      · rw [k7 t c h]; exact h2.bd S le_rfl (by linarith)
    · rw [k9]
      exact List.mem_cons_of_mem _ ((trimBack_spec _ _ h2.wf.sorted).2.2.1 p hp hpe)
    · rw [k6 t c (by linarith)]; exact h4 t c d
  · obtain ⟨z', k1, k2, k3, k4⟩ := h2.resize 0 le_rfl (show (0 : ℚ) ≤ E + b - a by linarith) le_rfl
    refine ⟨z', run z' k1, k2, ⟨p, h2.resize_mem le_rfl (by linarith) le_rfl k1 p hp (by linarith) hpe, hpK⟩,
      fun t c d => ?_⟩
    rw [k3 h2.keeps_begin t c (by linarith)]; exact h4 t c d

theorem simplify_endTime {x z : Signal} (h : Signal.simplify x = .ok z) : z.endTime = x.endTime := by
  unfold Signal.simplify at h
  split at h
  · cases h
  · obtain ⟨l, _, h⟩ := bind_eq_ok.1 h
    split at h
    · cases h
    · split_ifs at h <;> obtain rfl := Except.ok.inj h <;> rfl

/-- A windowed maximum over a part of the signal has a sample at its end if the signal has one. -/
theorem tev_mark {B a b u K : ℚ} {old x z : Signal} (hx : Node B x u K) (ha : 0 ≤ a)
    (hw : a < b → b - a < K - u) (hp : ∃ p ∈ x.samples, K ≤ p.time)
    (h : computeTimedEventually B old x a b = .ok z) (hz : z.endTime = K - a) :
    ∃ p ∈ z.samples, K - a ≤ p.time := by
  obtain ⟨p, hp, hpK⟩ := hp
  have hy : ∀ y, y = (if 0 < a then shift x (-a) else x) → y.endTime = K - a ∧ y.beginTime = u - a ∧
      ∃ p ∈ y.samples, K - a ≤ p.time := by
    rintro y rfl
    split_ifs with h0
    · exact ⟨by show x.endTime + -a = _; rw [hx.e]; ring, by show x.beginTime + -a = _; rw [hx.b]; ring,
        _, List.mem_map_of_mem hp, by simp only []; linarith⟩
    · have : a = 0 := le_antisymm (not_lt.1 h0) ha
      subst this
      exact ⟨by rw [hx.e, sub_zero], by rw [hx.b, sub_zero], p, hp, by linarith⟩
  unfold computeTimedEventually at h
  rw [if_neg hx.wf.ne] at h
  simp only at h
  generalize hyd : (if 0 < a then shift x (-a) else x) = y at h
  obtain ⟨y1, y2, y3⟩ := hy y hyd.symm
  split_ifs at h with h1 h2
  · obtain rfl := Except.ok.inj h
    exact y3
  · rw [y1, y2] at h2
    have := hw (by linarith)
    linarith
  · unfold computeBoundedEventually at h
    obtain ⟨_, _, h⟩ := bind_eq_ok.1 h
    obtain ⟨_, _, h⟩ := bind_eq_ok.1 h
    obtain ⟨z3, h3, h⟩ := bind_eq_ok.1 h
    obtain ⟨z4, h4, h⟩ := bind_eq_ok.1 h
    obtain ⟨q, q1, q2⟩ := simplify_mark h
    rw [← simplify_endTime h, hz] at q2
    exact ⟨q, q1, q2⟩

theorem talw_mark {B a b u K : ℚ} {old x z : Signal} (hx : Node B x u K) (ha : 0 ≤ a)
    (hw : a < b → b - a < K - u) (hp : ∃ p ∈ x.samples, K ≤ p.time)
    (h : computeTimedGlobally B old x a b = .ok z) (hz : z.endTime = K - a) :
    ∃ p ∈ z.samples, K - a ≤ p.time := by
  have e := computeTimedGlobally_not B old (computeNot x) a b
  rw [computeNot_computeNot, h] at e
  cases k : computeTimedEventually B old (computeNot x) a b with
  | error => rw [k] at e; cases e
  | ok w =>
    rw [k] at e
    obtain rfl := Except.ok.inj e
    obtain ⟨p, p1, p2⟩ := hp
    obtain ⟨q, q1, q2⟩ := tev_mark hx.not ha hw
      ⟨⟨p.time, -p.value, -p.derivative⟩, List.mem_map.2 ⟨p, p1, rfl⟩, p2⟩ k hz
    exact ⟨⟨q.time, -q.value, -q.derivative⟩, List.mem_map.2 ⟨q, q1, rfl⟩, q2⟩

/-- The signal of a node: on the evaluation interval or a longer one, exact on the former.  A longer one
has a sample at its end. -/
structure LWide (env : Env) (T : Tr) (z : Signal) (S E u K : ℚ) (f : ℚ → EReal) : Prop where
  node : Node env.B z u K
  lo : u ≤ S
  hi : E ≤ K
  is : Is z S E f
  pt : S = E → u = S ∧ K = E
  ends : (u = S ∧ K = E) ∨ ∃ p ∈ z.samples, K ≤ p.time
  mark : ∀ c, c ≤ E → MarkedU env.data c E T → ∃ p ∈ z.samples, c ≤ p.time

theorem Outcome.lwide {env : Env} {S E r : ℚ} {T T' : Tr} (h : Outcome env S E T T' r)
    (hm : ∀ c, MarkedU env.data c E T → Marked env.data c E T) :
    LWide env T T'.st.z S E S E (rob .LINEAR env.data env.params T) :=
  ⟨h.node, le_rfl, le_rfl, h.is, fun _ => ⟨rfl, rfl⟩, Or.inl ⟨rfl, rfl⟩, fun c a b => h.mark c a (hm c b)⟩

theorem LWide.not {env : Env} {s : St} {T : Tr} {z : Signal} {S E u K : ℚ} {f : ℚ → EReal}
    (h : LWide env T z S E u K f) : LWide env (.not s T) (computeNot z) S E u K (fun t => -f t) := by
  have hm : ∀ c, (∃ p ∈ z.samples, c ≤ p.time) → ∃ p ∈ (computeNot z).samples, c ≤ p.time := by
    rintro c ⟨p, p1, p2⟩
    exact ⟨⟨p.time, -p.value, -p.derivative⟩, List.mem_map.2 ⟨p, p1, rfl⟩, p2⟩
  exact ⟨h.node.not, h.lo, h.hi, h.is.not, h.pt, h.ends.imp id (hm _), fun c a b => hm c (h.mark c a b)⟩

theorem LWide.implies {env : Env} {s : St} {T1 T2 : Tr} {x y : Signal} {S E u1 K1 u2 K2 : ℚ} {f g : ℚ → EReal}
    (hSE : S ≤ E) (hx : LWide env T1 x S E u1 K1 f) (hy : LWide env T2 y S E u2 K2 g) :
    ∃ z u, computeImpliesM x y = .ok z ∧
      LWide env (.implies s T1 T2) z S E u (min K1 K2) (fun t => -f t ⊔ g t) := by
  rcases hSE.lt_or_eq with hlt | heq
  · have hlt' : max u1 u2 < min K1 K2 :=
      lt_of_le_of_lt (max_le hx.lo hy.lo) (hlt.trans_le (le_min hx.hi hy.hi))
    have nx := hx.node.not
    have ny := hy.node
    obtain ⟨z, z1, z2, z3⟩ := computeOrM_cg nx.wf ny.wf nx.cg ny.cg (by rw [nx.b, ny.b, nx.e, ny.e]; exact hlt')
    have hmk := computeOrM_mark z1
    rw [nx.e, ny.e] at hmk
    rw [nx.b, ny.b, nx.e, ny.e] at z2
    have hv : ∀ t, max u1 u2 ≤ t → t ≤ min K1 K2 →
        z.v (pl t) = max ((computeNot x).v (pl t)) (y.v (pl t)) := by
      intro t c d
      rcases d.lt_or_eq with d | rfl
      · exact z2.val _ (by simpa using c) (by simpa using d)
      · rw [z2.last hlt', z2.val _ (by simpa using hlt') le_rfl,
          nx.cg.cts _ (by rw [nx.b]; exact (le_max_left _ _).trans_lt hlt') (by rw [nx.e]; exact min_le_left _ _),
          ny.cg.cts _ (by rw [ny.b]; exact (le_max_right _ _).trans_lt hlt') (by rw [ny.e]; exact min_le_right _ _)]
    have hE : E ≤ min K1 K2 := le_min hx.hi hy.hi
    refine ⟨z, _, z1, ⟨z2.begin_eq, z2.end_eq, z2.wf.toWF0, z3, fun t c d => ?_⟩, max_le hx.lo hy.lo, hE,
      ?_, fun k => absurd k hlt.ne, Or.inr hmk, fun c a _ => ?_⟩
    · rw [hv t c d]
      have b1 := nx.bd t ((le_max_left _ _).trans c) (d.trans (min_le_left _ _))
      have b2 := ny.bd t ((le_max_right _ _).trans c) (d.trans (min_le_right _ _))
      exact ⟨b1.1.trans (le_max_left _ _), max_le b1.2 b2.2⟩
    · exact hx.is.not.max hy.is fun t c d => hv t ((max_le hx.lo hy.lo).trans c) (d.trans hE)
    · obtain ⟨p, p1, p2⟩ := hmk
      exact ⟨p, p1, (a.trans hE).trans p2⟩
  · obtain ⟨rfl, rfl⟩ := hx.pt heq
    obtain ⟨rfl, rfl⟩ := hy.pt heq
    rw [min_self]
    obtain ⟨z, c1, c2, _, c3⟩ := hx.node.not.or hy.node
    refine ⟨z, _, c1, c2, le_rfl, le_rfl, hx.is.not.max hy.is c3, fun _ => ⟨rfl, rfl⟩, Or.inl ⟨rfl, rfl⟩,
      fun c a _ => ?_⟩
    obtain ⟨p, p1, p2⟩ := computeOrM_mark c1
    rw [hx.node.not.e, hy.node.e, min_self] at p2
    exact ⟨p, p1, a.trans p2⟩

theorem LWide.and {env : Env} {s : St} {T1 T2 : Tr} {x y : Signal} {S E u1 K1 u2 K2 : ℚ} {f g : ℚ → EReal}
    (hSE : S ≤ E) (hx : LWide env T1 x S E u1 K1 f) (hy : LWide env T2 y S E u2 K2 g) :
    ∃ z u, computeAndM x y = .ok z ∧
      LWide env (.and s T1 T2) z S E u (min K1 K2) (fun t => f t ⊓ g t) := by
  rcases hSE.lt_or_eq with hlt | heq
  · have hlt' : max u1 u2 < min K1 K2 :=
      lt_of_le_of_lt (max_le hx.lo hy.lo) (hlt.trans_le (le_min hx.hi hy.hi))
    have nx := hx.node
    have ny := hy.node
    obtain ⟨z, z1, z2, z3⟩ := computeAndM_cg nx.wf ny.wf nx.cg ny.cg (by rw [nx.b, ny.b, nx.e, ny.e]; exact hlt')
    have hmk := computeAndM_mark z1
    rw [nx.e, ny.e] at hmk
    rw [nx.b, ny.b, nx.e, ny.e] at z2
    have hv : ∀ t, max u1 u2 ≤ t → t ≤ min K1 K2 →
        z.v (pl t) = min (x.v (pl t)) (y.v (pl t)) := by
      intro t c d
      rcases d.lt_or_eq with d | rfl
      · exact z2.val _ (by simpa using c) (by simpa using d)
      · rw [z2.last hlt', z2.val _ (by simpa using hlt') le_rfl,
          nx.cg.cts _ (by rw [nx.b]; exact (le_max_left _ _).trans_lt hlt') (by rw [nx.e]; exact min_le_left _ _),
          ny.cg.cts _ (by rw [ny.b]; exact (le_max_right _ _).trans_lt hlt') (by rw [ny.e]; exact min_le_right _ _)]
    have hE : E ≤ min K1 K2 := le_min hx.hi hy.hi
    refine ⟨z, _, z1, ⟨z2.begin_eq, z2.end_eq, z2.wf.toWF0, z3, fun t c d => ?_⟩, max_le hx.lo hy.lo, hE,
      ?_, fun k => absurd k hlt.ne, Or.inr hmk, fun c a _ => ?_⟩
    · rw [hv t c d]
      have b1 := nx.bd t ((le_max_left _ _).trans c) (d.trans (min_le_left _ _))
      have b2 := ny.bd t ((le_max_right _ _).trans c) (d.trans (min_le_right _ _))
      exact ⟨le_min b1.1 b2.1, (min_le_left _ _).trans b1.2⟩
    · exact hx.is.min hy.is fun t c d => hv t ((max_le hx.lo hy.lo).trans c) (d.trans hE)
    · obtain ⟨p, p1, p2⟩ := hmk
      exact ⟨p, p1, (a.trans hE).trans p2⟩
  · obtain ⟨rfl, rfl⟩ := hx.pt heq
    obtain ⟨rfl, rfl⟩ := hy.pt heq
    rw [min_self]
    obtain ⟨z, c1, c2, _, c3⟩ := hx.node.and hy.node
    refine ⟨z, _, c1, c2, le_rfl, le_rfl, hx.is.min hy.is c3, fun _ => ⟨rfl, rfl⟩, Or.inl ⟨rfl, rfl⟩,
      fun c a _ => ?_⟩
    obtain ⟨p, p1, p2⟩ := computeAndM_mark c1
    rw [hx.node.e, hy.node.e, min_self] at p2
    exact ⟨p, p1, a.trans p2⟩

theorem LWide.or {env : Env} {s : St} {T1 T2 : Tr} {x y : Signal} {S E u1 K1 u2 K2 : ℚ} {f g : ℚ → EReal}
    (hSE : S ≤ E) (hx : LWide env T1 x S E u1 K1 f) (hy : LWide env T2 y S E u2 K2 g) :
    ∃ z u, computeOrM x y = .ok z ∧
      LWide env (.or s T1 T2) z S E u (min K1 K2) (fun t => f t ⊔ g t) := by
  rcases hSE.lt_or_eq with hlt | heq
  · have hlt' : max u1 u2 < min K1 K2 :=
      lt_of_le_of_lt (max_le hx.lo hy.lo) (hlt.trans_le (le_min hx.hi hy.hi))
    have nx := hx.node
    have ny := hy.node
    obtain ⟨z, z1, z2, z3⟩ := computeOrM_cg nx.wf ny.wf nx.cg ny.cg (by rw [nx.b, ny.b, nx.e, ny.e]; exact hlt')
    have hmk := computeOrM_mark z1
    rw [nx.e, ny.e] at hmk
    rw [nx.b, ny.b, nx.e, ny.e] at z2
    have hv : ∀ t, max u1 u2 ≤ t → t ≤ min K1 K2 →
        z.v (pl t) = max (x.v (pl t)) (y.v (pl t)) := by
      intro t c d
      rcases d.lt_or_eq with d | rfl
      · exact z2.val _ (by simpa using c) (by simpa using d)
      · rw [z2.last hlt', z2.val _ (by simpa using hlt') le_rfl,
          nx.cg.cts _ (by rw [nx.b]; exact (le_max_left _ _).trans_lt hlt') (by rw [nx.e]; exact min_le_left _ _),
          ny.cg.cts _ (by rw [ny.b]; exact (le_max_right _ _).trans_lt hlt') (by rw [ny.e]; exact min_le_right _ _)]
    have hE : E ≤ min K1 K2 := le_min hx.hi hy.hi
    refine ⟨z, _, z1, ⟨z2.begin_eq, z2.end_eq, z2.wf.toWF0, z3, fun t c d => ?_⟩, max_le hx.lo hy.lo, hE,
      ?_, fun k => absurd k hlt.ne, Or.inr hmk, fun c a _ => ?_⟩
    · rw [hv t c d]
      have b1 := nx.bd t ((le_max_left _ _).trans c) (d.trans (min_le_left _ _))
      have b2 := ny.bd t ((le_max_right _ _).trans c) (d.trans (min_le_right _ _))
      exact ⟨b1.1.trans (le_max_left _ _), max_le b1.2 b2.2⟩
    · exact hx.is.max hy.is fun t c d => hv t ((max_le hx.lo hy.lo).trans c) (d.trans hE)
    · obtain ⟨p, p1, p2⟩ := hmk
      exact ⟨p, p1, (a.trans hE).trans p2⟩
  · obtain ⟨rfl, rfl⟩ := hx.pt heq
    obtain ⟨rfl, rfl⟩ := hy.pt heq
    rw [min_self]
    obtain ⟨z, c1, c2, _, c3⟩ := hx.node.or hy.node
    refine ⟨z, _, c1, c2, le_rfl, le_rfl, hx.is.max hy.is c3, fun _ => ⟨rfl, rfl⟩, Or.inl ⟨rfl, rfl⟩,
      fun c a _ => ?_⟩
    obtain ⟨p, p1, p2⟩ := computeOrM_mark c1
    rw [hx.node.e, hy.node.e, min_self] at p2
    exact ⟨p, p1, a.trans p2⟩

/-- What the windows need. -/
theorem LWide.keeps {env : Env} {T : Tr} {x : Signal} {a b S E u K : ℚ} {f : ℚ → EReal}
    (hx : LWide env T x (S + a) (E + b) u K f)
    (hk : S < E → a < b → MarkedU env.data (S + b) (E + b) T ∨ Bends f (S + a) (S + b) (E + b)) :
    u + (b - a) < K → a < b → KeepsSlope x (u + (b - a)) := by
  intro c d
  rcases hx.ends with ⟨rfl, rfl⟩ | ⟨p, p1, p2⟩
  · have hSE : S < E := by linarith
    rw [show S + a + (b - a) = S + b by ring]
    rcases hk hSE d with h | h
    · exact Or.inr (Or.inl (hx.mark _ (by linarith) h))
    · exact keeps_of_bends hx.node hx.is h
  · exact Or.inr (Or.inl ⟨p, p1, c.le.trans p2⟩)

theorem LWide.ev {env : Env} {T : Tr} {s : St} {x : Signal} {a b S E u K : ℚ} {f : ℚ → EReal} (hSE : S ≤ E)
    (ha : 0 ≤ a) (hab : a ≤ b) (hs : s.start = S) (he : s.stop = E)
    (hx : LWide env T x (S + a) (E + b) u K f)
    (hk : S < E → a < b → MarkedU env.data (S + b) (E + b) T ∨ Bends f (S + a) (S + b) (E + b)) :
    ∃ z zc, Tr.evRob env.B s a b x = .ok (z, zc) ∧ Node env.B z S E ∧
      Is z S E (fun t => ⨆ r ∈ Set.Icc (t + a) (t + b), f r) := by
  have l1 := hx.lo
  have l2 := hx.hi
  obtain ⟨w, w1, w2, w3⟩ := hx.node.tev (old := s.z) ha hab (hx.keeps hk)
  obtain ⟨z, z1, z2, z3, -⟩ := w2.resize 0 (show u - a ≤ S by linarith) hSE (show E ≤ K - a by linarith)
  obtain ⟨zc, hzc⟩ : ∃ zc, Signal.resize x (E - b) x.endTime 0 = .ok zc := resize_total _ _ _ hx.node.wf.ne
  have hkw : KeepsSlope w S := by
    rcases l1.lt_or_eq with h | h
    · have hp : ∃ p ∈ x.samples, K ≤ p.time := hx.ends.resolve_left fun k => absurd k.1 h.ne
      obtain ⟨p, p1, p2⟩ := tev_mark hx.node ha (fun _ => by linarith) hp w1 w2.e
      exact Or.inr (Or.inl ⟨p, p1, by linarith⟩)
    · exact Or.inl (by rw [w2.b, h]; ring)
  refine ⟨z, zc, ?_, z2, fun t c d => ?_⟩
  · unfold Tr.evRob
    simp only [w1, bind, Except.bind, w2.e, hs, he, min_eq_right (show E ≤ K - a by linarith), hzc,
      max_eq_right hSE, z1]
  · rw [z3 hkw t c d]
    have hT := w3 t (by linarith) (by linarith)
    rw [min_eq_left (by linarith)] at hT
    exact hT.sup hx.node (fun r p q => hx.is r (by linarith) (by linarith)) (by linarith) (by linarith)

theorem LWide.alw {env : Env} {T : Tr} {s : St} {x : Signal} {a b S E u K : ℚ} {f : ℚ → EReal} (hSE : S ≤ E)
    (ha : 0 ≤ a) (hab : a ≤ b) (hs : s.start = S) (he : s.stop = E)
    (hx : LWide env T x (S + a) (E + b) u K f)
    (hk : S < E → a < b → MarkedU env.data (S + b) (E + b) T ∨ Bends f (S + a) (S + b) (E + b)) :
    ∃ z, Tr.alwRob env.B s a b x = .ok z ∧ Node env.B z S E ∧
      Is z S E (fun t => ⨅ r ∈ Set.Icc (t + a) (t + b), f r) := by
  have l1 := hx.lo
  have l2 := hx.hi
  obtain ⟨w, w1, w2, w3⟩ := hx.node.talw (old := s.z) ha hab (hx.keeps hk)
  obtain ⟨z, z1, z2, z3, -⟩ := w2.resize 0 (show u - a ≤ S by linarith) hSE (show E ≤ K - a by linarith)
  have hkw : KeepsSlope w S := by
    rcases l1.lt_or_eq with h | h
    · have hp : ∃ p ∈ x.samples, K ≤ p.time := hx.ends.resolve_left fun k => absurd k.1 h.ne
      obtain ⟨p, p1, p2⟩ := talw_mark hx.node ha (fun _ => by linarith) hp w1 w2.e
      exact Or.inr (Or.inl ⟨p, p1, by linarith⟩)
    · exact Or.inl (by rw [w2.b, h]; ring)
  refine ⟨z, ?_, z2, fun t c d => ?_⟩
  · unfold Tr.alwRob
    simp only [w1, bind, Except.bind, w2.e, hs, he, min_eq_right (show E ≤ K - a by linarith),
      max_eq_right hSE, z1]
  · rw [z3 hkw t c d]
    have hT := w3 t (by linarith) (by linarith)
    rw [min_eq_left (by linarith)] at hT
    exact hT.inf hx.node (fun r p q => hx.is r (by linarith) (by linarith)) (by linarith) (by linarith)

section
variable {env : Env} {n : ℕ}

/-- The robustness signal of formulas with `until` below temporal operators in LINEAR mode. -/
theorem rob_lin (hL : Lin env n) (hsem : env.sem = .SPACE) (T : Tr) : ∀ {S E : ℚ}, 0 ≤ S → S ≤ E →
    Covers env.data S (E + reach env.params T) → IsUntilFormula n env.params T →
    Fresh env.params S E T → LinNestOk env.data env.params S E T →
    AtomsWithin .LINEAR env.B env.data env.params S E T →
    ∃ T' v u, Tr.computeRob env T = .ok (T', v) ∧
      LWide env T T'.st.z S E u (farEnd env.params E T) (rob .LINEAR env.data env.params T) ∧ v = T'.st.z.v (pl u) := by
  induction T with
  | atom s k l r =>
    intro S E h0 hSE hc hF hf hk hB
    obtain ⟨T', v, a1, a2, _⟩ := atom_first hL hsem (covers_mono hc le_rfl (by simp [reach])) (h0.trans hSE) hSE
      hF hf hk hB
    exact ⟨T', v, S, a1, a2.lwide fun c h => h, a2.val⟩
  | not s c ih =>
    intro S E h0 hSE hc hF hf hk hB
    obtain ⟨c', v, u, a1, a2, _⟩ := ih h0 hSE hc hF hf.2 hk hB
    obtain ⟨p, hp, hpv⟩ := a2.not (s := s).node.front
    refine ⟨.not { s with z := computeNot c'.st.z } c', p.value, u, ?_, a2.not, hpv⟩
    simp only [Tr.computeRob, a1, bind, Except.bind, hp]
  | and s l r ih1 ih2 =>
    intro S E h0 hSE hc hF hf hk hB
    obtain ⟨l', v, _, a1, a2, _⟩ := ih1 h0 hSE (covers_mono hc le_rfl (by simp [reach])) hF.1 hf.2.1 hk.1 hB.1
    obtain ⟨r', w, _, b1, b2, _⟩ := ih2 h0 hSE (covers_mono hc le_rfl (by simp [reach])) hF.2 hf.2.2 hk.2.1 hB.2
    obtain ⟨z, u, c1, c2⟩ := LWide.and (s := s) hSE a2 b2
    obtain ⟨p, hp, hpv⟩ := c2.node.front
    have hz : Tr.andRob l'.st.z r'.st.z = .ok z := by
      unfold Tr.andRob
      have e1 : ({ l'.st.z with endTime := max l'.st.z.endTime r'.st.z.endTime } : Signal) = l'.st.z := by
        rw [a2.node.e, b2.node.e, ← hk.2.2, max_self, ← a2.node.e]
      have e2 : ({ r'.st.z with endTime := max l'.st.z.endTime r'.st.z.endTime } : Signal) = r'.st.z := by
        rw [a2.node.e, b2.node.e, hk.2.2, max_self, ← b2.node.e]
      simp only [e1, e2, c1]
    refine ⟨.and { s with z := z } l' r', p.value, u, ?_, ?_, hpv⟩
    · simp only [Tr.computeRob, a1, b1, bind, Except.bind, hp, hz]
    · rw [← hk.2.2, min_self] at c2
      simp only [farEnd, ← hk.2.2, max_self]
      exact c2
  | or s l r ih1 ih2 =>
    intro S E h0 hSE hc hF hf hk hB
    obtain ⟨l', v, _, a1, a2, _⟩ := ih1 h0 hSE (covers_mono hc le_rfl (by simp [reach])) hF.1 hf.2.1 hk.1 hB.1
    obtain ⟨r', w, _, b1, b2, _⟩ := ih2 h0 hSE (covers_mono hc le_rfl (by simp [reach])) hF.2 hf.2.2 hk.2.1 hB.2
    obtain ⟨z, u, c1, c2⟩ := LWide.or (s := s) hSE a2 b2
    obtain ⟨p, hp, hpv⟩ := c2.node.front
    have hz : Tr.orRob l'.st.z r'.st.z = .ok z := by
      unfold Tr.orRob
      have e1 : ({ l'.st.z with endTime := max l'.st.z.endTime r'.st.z.endTime } : Signal) = l'.st.z := by
        rw [a2.node.e, b2.node.e, ← hk.2.2, max_self, ← a2.node.e]
      have e2 : ({ r'.st.z with endTime := max l'.st.z.endTime r'.st.z.endTime } : Signal) = r'.st.z := by
        rw [a2.node.e, b2.node.e, hk.2.2, max_self, ← b2.node.e]
      simp only [e1, e2, c1]
    refine ⟨.or { s with z := z } l' r', p.value, u, ?_, ?_, hpv⟩
    · simp only [Tr.computeRob, a1, b1, bind, Except.bind, hp, hz]
    · rw [← hk.2.2, min_self] at c2
      simp only [farEnd, ← hk.2.2, max_self]
      exact c2
  | implies s l r ih1 ih2 =>
    intro S E h0 hSE hc hF hf hk hB
    obtain ⟨l', v, _, a1, a2, _⟩ := ih1 h0 hSE (covers_mono hc le_rfl (by simp [reach])) hF.1 hf.2.1 hk.1 hB.1
    obtain ⟨r', w, _, b1, b2, _⟩ := ih2 h0 hSE (covers_mono hc le_rfl (by simp [reach])) hF.2 hf.2.2 hk.2 hB.2
    obtain ⟨z, u, c1, c2⟩ := LWide.implies (s := s) hSE a2 b2
    obtain ⟨p, hp, hpv⟩ := c2.node.front
    refine ⟨.implies { s with z := z } l' r', p.value, u, ?_, c2, hpv⟩
    simp only [Tr.computeRob, a1, b1, bind, Except.bind, hp, c1]
  | ev s I c ih =>
    intro S E h0 hSE hc hF hf hk hB
    obtain ⟨ha, hab, hFc⟩ := hF
    obtain ⟨hk1, hk2⟩ := hk
    set a := bound env.params I.beginStr I.begin with hadef
    set b := bound env.params I.stopStr I.stop with hbdef
    obtain ⟨c', v, _, a1, a2, _⟩ := ih (S := S + a) (E := E + b) (by linarith) (by linarith)
      (covers_mono hc (by linarith) (by simp [reach, ← hbdef]; linarith)) hFc hf.2 hk1 hB
    obtain ⟨z, zc, b1, b2, b3⟩ := a2.ev hSE ha hab hf.1.1 hf.1.2.1 hk2
    obtain ⟨p, hp, hpv⟩ := b2.front
    refine ⟨.ev { s with z := z } I (Tr.setZ zc c'), p.value, S, ?_,
      ⟨b2, le_rfl, le_rfl, b3, fun _ => ⟨rfl, rfl⟩, Or.inl ⟨rfl, rfl⟩, fun _ _ h => h.elim⟩, hpv⟩
    simp only [Tr.computeRob, a1, bind, Except.bind, ivA_eq, ivB_eq, ← hadef, ← hbdef, b1, hp]
  | alw s I c ih =>
    intro S E h0 hSE hc hF hf hk hB
    obtain ⟨ha, hab, hFc⟩ := hF
    obtain ⟨hk1, hk2⟩ := hk
    set a := bound env.params I.beginStr I.begin with hadef
    set b := bound env.params I.stopStr I.stop with hbdef
    obtain ⟨c', v, _, a1, a2, _⟩ := ih (S := S + a) (E := E + b) (by linarith) (by linarith)
      (covers_mono hc (by linarith) (by simp [reach, ← hbdef]; linarith)) hFc hf.2 hk1 hB
    obtain ⟨z, b1, b2, b3⟩ := a2.alw hSE ha hab hf.1.1 hf.1.2.1 hk2
    obtain ⟨p, hp, hpv⟩ := b2.front
    refine ⟨.alw { s with z := z } I c', p.value, S, ?_,
      ⟨b2, le_rfl, le_rfl, b3, fun _ => ⟨rfl, rfl⟩, Or.inl ⟨rfl, rfl⟩, fun _ _ h => h.elim⟩, hpv⟩
    simp only [Tr.computeRob, a1, bind, Except.bind, ivA_eq, ivB_eq, ← hadef, ← hbdef, b1, hp]
  | untl s l I r _ _ =>
    intro S E h0 hSE hc hF hf hk hB
    obtain ⟨ha, hab, hFl, hFr⟩ := hF
    obtain ⟨hlt, cl, cr, hkl, hkr, hrow⟩ := hk
    set a := bound env.params I.beginStr I.begin with hadef
    set b := bound env.params I.stopStr I.stop with hbdef
    cases l with
    | atom sl kl ll lr =>
      cases r with
      | atom sr kr rl rr =>
        have hre : reach env.params (.untl s (.atom sl kl ll lr) I (.atom sr kr rl rr)) = b := by
          simp [reach, ← hbdef]
        rw [hre] at hc
        obtain ⟨l', v, a1, a2, a3⟩ := atom_first hL hsem (S := S) (E := E + b) hc (by linarith) (by linarith)
          hFl hf.2.1 hkl hB.1
        obtain ⟨r', w, b1, b2, b3⟩ := atom_first hL hsem (S := S + a) (E := E + b)
          (covers_mono hc (by linarith) le_rfl) (by linarith) (by linarith) hFr hf.2.2 hkr hB.2
        have hD : (env.data.map rowTime).Pairwise (· < ·) := hL.shape.inc
        obtain ⟨p, p1, p2⟩ := b2.mark (S + b) (by linarith) hrow
        obtain ⟨q, q1, q2⟩ := a2.mark (S + a) (by linarith) (by
          obtain ⟨row, r1, t, r2, r3, r4⟩ := hrow
          exact ⟨row, r1, t, r2, by linarith, r4⟩)
        obtain ⟨z, c1, c2, c3, c4⟩ := untilRob_lin (s := s) h0 hlt ha hab a2.node b2.node
          (Tr.grid_wf hD (by linarith) a2.node.b a2.node.e a3).2
          (Tr.grid_wf hD (by linarith) b2.node.b b2.node.e b3).2
          (risesClear_grid ha a3 b3 a2.node.b b2.node.b)
          (fun _ => Or.inr (Or.inl ⟨q, q1, q2⟩)) (Or.inr (Or.inl ⟨p, p1, p2⟩)) a2.is b2.is
        obtain ⟨o, ho, hov⟩ := c2.front
        refine ⟨.untl { s with z := z } l' I r', o.value, 0, ?_,
          ⟨c2, h0, show E ≤ E + b - a by linarith, c4, fun k => absurd k hlt.ne, Or.inr c3, fun c hcE _ => ?_⟩, hov⟩
        · generalize Tr.atom sl kl ll lr = l at a1 ⊢
          generalize Tr.atom sr kr rl rr = r at b1 ⊢
          simp only [Tr.computeRob, a1, b1, bind, Except.bind, ivA_eq, ivB_eq, ← hadef, ← hbdef, c1, ho]
        · obtain ⟨o, o1, o2⟩ := c3
          exact ⟨o, o1, by linarith⟩
      | _ => exact cr.elim
    | _ => exact cl.elim
  | _ => intro S E h0 hSE hc hF; exact hF.elim

end

theorem isComparison_forget : ∀ T : Tr, IsComparison (T.forgetB false) ↔ IsComparison T := by
  intro T
  cases T <;> simp [Tr.forgetB, IsComparison]

theorem farEnd_forget (P : Assoc ℚ) (e : ℚ) : ∀ T : Tr, farEnd P e (T.forgetB false) = farEnd P e T := by
  intro T
  induction T <;> simp_all [Tr.forgetB, farEnd]

theorem markedU_forget (D : List (List ℚ)) (u w : ℚ) :
    ∀ T : Tr, MarkedU D u w (T.forgetB false) ↔ MarkedU D u w T := by
  intro T
  induction T <;> simp_all [Tr.forgetB, MarkedU, Marked]

theorem linNestOk_forget (D : List (List ℚ)) (P : Assoc ℚ) :
    ∀ (T : Tr) (s e : ℚ), LinNestOk D P s e (T.forgetB false) ↔ LinNestOk D P s e T := by
  intro T
  induction T <;> intro s e <;> simp_all [Tr.forgetB, LinNestOk, isLeaf_forget, isAffine_forget, rob_forget,
    atomsOk_forget, farEnd_forget, isComparison_forget, markedU_forget, AtomsOk]

/-- The result of an evaluation at one time of a formula with `until` below temporal operators. -/
theorem evalRob_lin {g g' : Globals} {m m' : Monitor} {n : ℕ} {T : Tr} {t v : ℚ}
    (h : LinNestReady n g.B m T t) (hv : m.evalRob1 g t = (g', m', .ok v)) :
    rob .LINEAR m.data m.params T t = er v := by
  have hL : Lin (m.envOf g) n := ⟨h.interpol, h.rows, h.names⟩
  have hp : (Monitor.prepare m.params t t T).forgetB false = T.forgetB false :=
    Tr.forgetB_prepare (by simp [h.names]) t t T
  set T0 := Monitor.prepare m.params t t T with hT0
  obtain ⟨T1, w, u, a1, a2, a3⟩ := rob_lin hL h.sem T0 (S := t) (E := t) h.start le_rfl
    (by rw [← reach_forget, hp, reach_forget]; exact h.covers)
    (by rw [← isUntilFormula_forget, hp, isUntilFormula_forget]; exact h.shape)
    (fresh_prepare _ T t t)
    (by rw [← linNestOk_forget, hp, linNestOk_forget]; exact h.ok)
    (by rw [← atomsWithin_forget, hp, atomsWithin_forget]; exact h.within)
  have hw : rob .LINEAR m.data m.params T t = er w := by
    have := a2.is t le_rfl le_rfl
    rw [(a2.pt rfl).1] at a3
    rw [← a3] at this
    rw [← this, ← rob_forget, ← hp, rob_forget]
    rfl
  unfold Monitor.evalRob1 Monitor.evalRob at hv
  rw [h.formula] at hv
  simp only at hv
  split at hv
  · rename_i T' r lo up hr
    simp only [Monitor.run3, bind_eq_ok, Prod.exists] at hr
    obtain ⟨T1', w', k1, T2, lo', k2, T3, up', k3, k4⟩ := hr
    rw [show Tr.computeRob ⟨g.B, m.sem, m.ip, m.data, m.params⟩ (Monitor.prepare m.params t t T) = _ from a1] at k1
    simp only [Except.ok.injEq, Prod.mk.injEq] at k1 k4 hv
    rw [hw, k1.2, k4.2.1, hv.2.2]
  · simp at hv

end STLRom
