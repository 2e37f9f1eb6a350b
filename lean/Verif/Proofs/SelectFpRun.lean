import Verif.Proofs.TermFp

/-!
# Runs with rounding select computed margins

As `Proofs/SelectRun.lean`, for the rounded run: in PREVIOUS mode every value in the signals of a
formula is a computed margin of a comparison at a row.
-/

namespace STLRom
namespace Fp
open Signal Spec

/-- A formula whose computed margins at the rows are in `V`, and whose signals have their values in
`V`. -/
def FIn (rd : ℚ → ℚ) (V : ℚ → Prop) (n : ℕ) (D : List (List ℚ)) (P : Assoc ℚ) : Tr → Prop
  | .atom s k l r => StIn V s ∧ (∀ row ∈ D, V (rd (margin k (flExpr rd P row l) (flExpr rd P row r)))) ∧
      IsExpr n l ∧ IsExpr n r ∧
      ((∃ S E, Fresh P S E l ∧ Fresh P S E r ∧ rd S = S ∧ rd E = E ∧ ExprConsts rd P l ∧ ExprConsts rd P r) ∨
        ∃ q : List (ℚ × List ℚ), (∀ x ∈ q, x.2 ∈ D) ∧ EInv n D l ∧ EInv n D r ∧ FRows rd P q l ∧ FRows rd P q r ∧
          LOK rd P l ∧ LOK rd P r)
  | .not s c | .ev s _ c | .alw s _ c => StIn V s ∧ FIn rd V n D P c
  | .and s l r | .or s l r | .implies s l r | .untl s l _ r => StIn V s ∧ FIn rd V n D P l ∧ FIn rd V n D P r
  | _ => False

section
variable {rd : ℚ → ℚ} {env : Env} {n : ℕ} {P : Assoc ℚ} {V : ℚ → Prop}

theorem FIn.st {D : List (List ℚ)} {T : Tr} (h : FIn rd V n D P T) : StIn V T.st := by
  cases T with
  | atom | not | ev | alw | and | or | implies | untl => exact h.1
  | _ => exact h.elim

theorem fin_setSt {D : List (List ℚ)} {T : Tr} {s : St} (h : FIn rd V n D P T) (hs : StIn V s) :
    FIn rd V n D P (T.setSt s) := by
  cases T with
  | atom | not | ev | alw | and | or | implies | untl => exact ⟨hs, h.2⟩
  | _ => exact h.elim

theorem atomLoop_in {k : Cmp} {gl gr : List ℚ → ℚ} : ∀ (q : List (ℚ × List ℚ)) (z : Signal), SIn V z →
    (∀ x ∈ q, V (rd (margin k (gl x.2) (gr x.2)))) →
    Post (SIn V) (atomLoop rd .PREVIOUS k z (sg gl q) (sg gr q))
  | [], z, hz, _ => by simp only [sg, List.map_nil, atomLoop]; exact post_ok hz
  | x :: q, z, hz, h => by
    have hx := h x (by simp)
    simp only [sg, List.map_cons, atomLoop]
    cases k with
    | less => exact post_bind (append_in hz _ _ hx) fun z' hz' =>
        atomLoop_in q z' hz' fun y hy => h y (by simp [hy])
    | greater => exact post_bind (append_in hz _ _ hx) fun z' hz' =>
        atomLoop_in q z' hz' fun y hy => h y (by simp [hy])

theorem atomRob_in (hp : env.ip = .PREVIOUS) (hs : env.sem = .SPACE) {k : Cmp} {gl gr : List ℚ → ℚ}
    {q : List (ℚ × List ℚ)} {z zl zr : Signal} (hz : SIn V z) (h1 : zl.samples = sg gl q)
    (h2 : zr.samples = sg gr q) (h : ∀ x ∈ q, V (rd (margin k (gl x.2) (gr x.2)))) :
    Post (SIn V) (atomRob rd env k z zl zr) := by
  unfold atomRob
  rw [hp, hs, h1, h2]
  exact post_bind (atomLoop_in q z hz h) fun z' hz' => post_ok hz'

/-- What holds after a run. -/
def FGood (rd : ℚ → ℚ) (V : ℚ → Prop) (n : ℕ) (env : Env) (r : Tr × ℚ) : Prop :=
  FIn rd V n env.data env.params r.1 ∧ V r.2

theorem rob_in (R : Rnd rd) (hd : ∀ r ∈ env.data, ∀ x ∈ r, rd x = x) (hV : Vals rd env.B V) (hD : WellShaped n env.data) (hp : env.ip = .PREVIOUS)
    (hs : env.sem = .SPACE) : ∀ {T : Tr}, FIn rd V n env.data env.params T → Post (FGood rd V n env) (computeRob rd env T) := by
  intro T
  induction T with
  | atom s k l r =>
    rintro ⟨h1, h2, h3, h4, h5⟩
    simp only [computeRob]
    have hb : ∃ q : List (ℚ × List ℚ), (∀ x ∈ q, x.2 ∈ env.data) ∧
        ∀ l' x r' y, computeRob rd env l = .ok (l', x) → computeRob rd env r = .ok (r', y) →
          (LOK rd env.params l' ∧ LOK rd env.params r') ∧ EInv n env.data l' ∧ EInv n env.data r' ∧ FRows rd env.params q l' ∧ FRows rd env.params q r' ∧
          IsExpr n l' ∧ IsExpr n r' ∧ (∀ row, flExpr rd env.params row l' = flExpr rd env.params row l) ∧
          ∀ row, flExpr rd env.params row r' = flExpr rd env.params row r := by
      rcases h5 with ⟨S, E, f1, f2, f3, f4, f5, f6⟩ | ⟨q, q1, q2, q3, q4, q5, q6, q7⟩
      · obtain ⟨q, q1, q2⟩ := fterm_rows (P := env.params) R hp hd hD f3 f4
        refine ⟨q, q1, fun l' x r' y e1 e2 => ?_⟩
        obtain ⟨a1, a2, _, a3, a5, a4⟩ := q2 h3 f1 f5 e1
        obtain ⟨b1, b2, _, b3, b5, b4⟩ := q2 h4 f2 f6 e2
        exact ⟨⟨a5, b5⟩, a1, b1, a2, b2, a3, b3, a4, b4⟩
      · refine ⟨q, q1, fun l' x r' y e1 e2 => ?_⟩
        obtain ⟨a1, a2, a3, a5, a4⟩ := fterm_again R hp hd hD h3 q2 q4 q6 e1
        obtain ⟨b1, b2, b3, b5, b4⟩ := fterm_again R hp hd hD h4 q3 q5 q7 e2
        exact ⟨⟨a5, b5⟩, a1, b1, a2, b2, a3, b3, a4, b4⟩
    obtain ⟨q, q1, q2⟩ := hb
    intro a ha
    obtain ⟨⟨l', x⟩, e1, ha⟩ := bind_eq_ok.1 ha
    obtain ⟨⟨r', y⟩, e2, ha⟩ := bind_eq_ok.1 ha
    obtain ⟨⟨k9, k10⟩, k1, k2, k3, k4, k5, k6, k7, k8⟩ := q2 _ _ _ _ e1 e2
    refine post_bind (atomRob_in hp hs h1.1 k3.samples k4.samples fun x hx => ?_) (fun z hz => ?_) a ha
    · rw [k7, k8]; exact h2 _ (q1 x hx)
    · refine post_bind (front_in hz) fun p hq => post_ok ⟨⟨⟨hz, h1.2⟩, fun row hr => ?_, k5, k6, Or.inr ⟨q, q1, k1, k2, k3, k4, k9, k10⟩⟩, hq⟩
      rw [k7, k8]; exact h2 row hr
  | not s c ih =>
    rintro ⟨h1, h2⟩
    simp only [computeRob]
    refine post_bind (ih h2) fun c' hc => ?_
    have hz := sin_not hV.exact hc.1.st.1
    exact post_bind (front_in hz) fun p hq => post_ok ⟨⟨⟨hz, h1.2⟩, hc.1⟩, hq⟩
  | and s l r ih1 ih2 =>
    rintro ⟨h1, h2, h3⟩
    simp only [computeRob]
    refine post_bind (ih1 h2) fun l' hl => post_bind (ih2 h3) fun r' hr => ?_
    refine post_bind (Q := SIn V) (computeAndM_in hV hl.1.st.1 hr.1.st.1) fun z hz => ?_
    exact post_bind (front_in hz) fun p hq => post_ok ⟨⟨⟨hz, h1.2⟩, hl.1, hr.1⟩, hq⟩
  | or s l r ih1 ih2 =>
    rintro ⟨h1, h2, h3⟩
    simp only [computeRob]
    refine post_bind (ih1 h2) fun l' hl => post_bind (ih2 h3) fun r' hr => ?_
    refine post_bind (Q := SIn V) (computeOrM_in hV hl.1.st.1 hr.1.st.1) fun z hz => ?_
    exact post_bind (front_in hz) fun p hq => post_ok ⟨⟨⟨hz, h1.2⟩, hl.1, hr.1⟩, hq⟩
  | implies s l r ih1 ih2 =>
    rintro ⟨h1, h2, h3⟩
    simp only [computeRob]
    refine post_bind (ih1 h2) fun l' hl => post_bind (ih2 h3) fun r' hr => ?_
    refine post_bind (Q := SIn V) (computeOrM_in hV (sin_not hV.exact hl.1.st.1) hr.1.st.1) fun z hz => ?_
    exact post_bind (front_in hz) fun p hq => post_ok ⟨⟨⟨hz, h1.2⟩, hl.1, hr.1⟩, hq⟩
  | ev s I c ih =>
    rintro ⟨h1, h2⟩
    simp only [computeRob]
    refine post_bind (ih h2) fun c' hc => ?_
    have he : ∀ a b, Post (fun r => SIn V r.1 ∧ SIn V r.2) (evRob rd env.B s a b c'.1.st.z) := by
      intro a b
      unfold evRob
      refine post_bind (timedEv_in hV hc.1.st.1 _ _ _) fun z hz => ?_
      refine post_bind (resize_in hV hc.1.st.1 _ _ hV.zero) fun zc hzc => ?_
      exact post_bind (resize_in hV hz _ _ hV.zero) fun z' hz' => post_ok ⟨hz', hzc⟩
    refine post_bind (he _ _) fun z hz => ?_
    exact post_bind (front_in hz.1) fun p hq => post_ok ⟨⟨⟨hz.1, h1.2⟩, fin_setSt hc.1 ⟨hz.2, hc.1.st.2⟩⟩, hq⟩
  | alw s I c ih =>
    rintro ⟨h1, h2⟩
    simp only [computeRob]
    refine post_bind (ih h2) fun c' hc => ?_
    refine post_bind (Q := SIn V) ?_ fun z hz =>
      post_bind (front_in hz) fun p hq => post_ok ⟨⟨⟨hz, h1.2⟩, hc.1⟩, hq⟩
    unfold alwRob
    exact post_bind (timedGlob_in hV hc.1.st.1 _ _ _) fun z hz => resize_in hV hz _ _ hV.zero
  | untl s l I r ih1 ih2 =>
    rintro ⟨h1, h2, h3⟩
    simp only [computeRob]
    refine post_bind (ih1 h2) fun l' hl => post_bind (ih2 h3) fun r' hr => ?_
    refine post_bind (Q := SIn V) ?_ fun z hz =>
      post_bind (front_in hz) fun p hq => post_ok ⟨⟨⟨hz, h1.2⟩, hl.1, hr.1⟩, hq⟩
    unfold untilRob
    exact post_bind (timedUntil_in hV hl.1.st.1 hr.1.st.1 _ _ _) fun z hz => resize_in hV hz _ _ hV.zero
  | _ => intro h; exact h.elim

theorem appendIfEmpty_in {ip : Interpol} (hp : ip = .PREVIOUS) {z : Signal} (hz : SIn V z) (t : ℚ) {c : ℚ} (hc : V c) :
    Post (SIn V) (appendIfEmpty rd ip z t c) := by
  unfold appendIfEmpty appendSample0
  rw [hp]
  exact post_ite (fun _ => append_in hz _ _ hc) fun _ => post_ok hz

theorem append0_in {ip : Interpol} (hp : ip = .PREVIOUS) {z : Signal} (hz : SIn V z) (t : ℚ) {c : ℚ} (hc : V c) :
    Post (SIn V) (appendSample0 rd ip z t c) := by
  unfold appendSample0
  rw [hp]
  exact append_in hz _ _ hc

theorem low_up_in (R : Rnd rd) (hd : ∀ r ∈ env.data, ∀ x ∈ r, rd x = x) (hV : Vals rd env.B V) (hD : WellShaped n env.data) (hp : env.ip = .PREVIOUS)
    (hs : env.sem = .SPACE) : ∀ {T : Tr}, FIn rd V n env.data env.params T →
      Post (FGood rd V n env) (computeLow rd env T) ∧ Post (FGood rd V n env) (computeUp rd env T) := by
  have two : ∀ {z : Signal} {s t : ℚ} {v c : ℚ}, SIn V z → V v → V c → Post (SIn V)
      (resize rd z s t v >>= fun z => appendIfEmpty rd env.ip z s c) := fun hz hv hc =>
    post_bind (resize_in hV hz _ _ hv) fun z' hz' => appendIfEmpty_in hp hz' _ hc
  have tmp : ∀ {z : Signal} {s t c : ℚ}, SIn V z → V c → Post (fun r : Signal × ℚ => SIn V r.1 ∧ V r.2)
      (resize rd z s t 0 >>= fun z => appendIfEmpty rd env.ip z s c >>= fun z => z.front >>= fun p =>
        Except.ok (z, p.value)) := fun hz hc =>
    post_bind (resize_in hV hz _ _ hV.zero) fun z' hz' => post_bind (appendIfEmpty_in hp hz' _ hc) fun z'' h'' =>
      post_bind (front_in h'') fun p hq => post_ok ⟨h'', hq⟩
  intro T
  induction T with
  | atom s k l r =>
    intro h
    constructor
    · simp only [computeLow]
      refine post_bind (rob_in R hd hV hD hp hs h) fun T' hT => ?_
      refine post_bind (Q := SIn V) ?_ fun z hz =>
        post_bind (front_in hz) fun p hq => post_ok ⟨fin_setSt hT.1 ⟨hT.1.st.1, hz, hT.1.st.2.2⟩, hq⟩
      unfold defaultLow
      exact post_ite (fun _ => append0_in hp hT.1.st.2.1 _ hV.negB) fun _ => post_ok hT.1.st.1
    · simp only [computeUp]
      refine post_bind (rob_in R hd hV hD hp hs h) fun T' hT => ?_
      refine post_bind (Q := SIn V) ?_ fun z hz =>
        post_bind (front_in hz) fun p hq => post_ok ⟨fin_setSt hT.1 ⟨hT.1.st.1, hT.1.st.2.1, hz⟩, hq⟩
      unfold defaultUp
      exact post_ite (fun _ => append0_in hp hT.1.st.2.2 _ hV.negB) fun _ => post_ok hT.1.st.1
  | not s c ih =>
    rintro ⟨h1, h2⟩
    constructor
    · simp only [computeLow]
      refine post_bind (ih h2).2 fun c' hc => ?_
      refine post_ite (fun _ => ?_) fun _ => ?_
      · exact post_bind (append0_in hp h1.2.1 _ hV.negB) fun z hz => post_ok ⟨⟨⟨h1.1, hz, h1.2.2⟩, hc.1⟩, hV.negB⟩
      · have hz := sin_not hV.exact hc.1.st.2.2
        exact post_bind (front_in hz) fun p hq => post_ok ⟨⟨⟨h1.1, hz, h1.2.2⟩, hc.1⟩, hq⟩
    · simp only [computeUp]
      refine post_bind (ih h2).1 fun c' hc => ?_
      refine post_ite (fun _ => ?_) fun _ => ?_
      · exact post_bind (append0_in hp h1.2.2 _ hV.big) fun z hz => post_ok ⟨⟨⟨h1.1, h1.2.1, hz⟩, hc.1⟩, hV.big⟩
      · have hz := sin_not hV.exact hc.1.st.2.1
        exact post_bind (front_in hz) fun p hq => post_ok ⟨⟨⟨h1.1, h1.2.1, hz⟩, hc.1⟩, hq⟩
  | and s l r ih1 ih2 =>
    rintro ⟨h1, h2, h3⟩
    constructor
    · simp only [computeLow]
      refine post_bind (ih1 h2).1 fun l' hl => post_bind (ih2 h3).1 fun r' hr => ?_
      refine post_bind (Q := SIn V) ?_ fun z hz =>
        post_bind (front_in hz) fun p hq => post_ok ⟨⟨⟨h1.1, hz, h1.2.2⟩, hl.1, hr.1⟩, hq⟩
      unfold andLow
      exact post_bind (computeAndM_in hV hl.1.st.2.1 hr.1.st.2.1) fun z hz => two hz hV.negB hV.negB
    · simp only [computeUp]
      refine post_bind (ih1 h2).2 fun l' hl => post_bind (ih2 h3).2 fun r' hr => ?_
      refine post_bind (Q := SIn V) ?_ fun z hz =>
        post_bind (front_in hz) fun p hq => post_ok ⟨⟨⟨h1.1, h1.2.1, hz⟩, hl.1, hr.1⟩, hq⟩
      unfold andUp
      exact post_bind (computeAndM_in hV hl.1.st.2.2 hr.1.st.2.2) fun z hz => two hz hV.big hV.big
  | or s l r ih1 ih2 =>
    rintro ⟨h1, h2, h3⟩
    constructor
    · simp only [computeLow]
      refine post_bind (ih1 h2).1 fun l' hl => post_bind (ih2 h3).1 fun r' hr => ?_
      refine post_bind (Q := SIn V) ?_ fun z hz =>
        post_bind (front_in hz) fun p hq => post_ok ⟨⟨⟨h1.1, hz, h1.2.2⟩, hl.1, hr.1⟩, hq⟩
      unfold orLow
      exact post_bind (computeOrM_in hV hl.1.st.2.1 hr.1.st.2.1) fun z hz => two hz hV.negB hV.negB
    · simp only [computeUp]
      refine post_bind (ih1 h2).2 fun l' hl => post_bind (ih2 h3).2 fun r' hr => ?_
      refine post_bind (Q := SIn V) ?_ fun z hz =>
        post_bind (front_in hz) fun p hq => post_ok ⟨⟨⟨h1.1, h1.2.1, hz⟩, hl.1, hr.1⟩, hq⟩
      unfold orUp
      exact post_bind (computeOrM_in hV hl.1.st.2.2 hr.1.st.2.2) fun z hz => two hz hV.big hV.big
  | implies s l r ih1 ih2 =>
    rintro ⟨h1, h2, h3⟩
    constructor
    · simp only [computeLow]
      refine post_bind (ih1 h2).2 fun l' hl => post_bind (ih2 h3).1 fun r' hr => ?_
      refine post_bind (Q := SIn V) ?_ fun z hz =>
        post_bind (front_in hz) fun p hq => post_ok ⟨⟨⟨h1.1, hz, h1.2.2⟩, hl.1, hr.1⟩, hq⟩
      unfold impliesLow
      exact post_bind (computeOrM_in hV (sin_not hV.exact hl.1.st.2.2) hr.1.st.2.1) fun z hz => two hz hV.negB hV.negB
    · simp only [computeUp]
      refine post_bind (ih1 h2).1 fun l' hl => post_bind (ih2 h3).2 fun r' hr => ?_
      refine post_bind (Q := SIn V) ?_ fun z hz =>
        post_bind (front_in hz) fun p hq => post_ok ⟨⟨⟨h1.1, h1.2.1, hz⟩, hl.1, hr.1⟩, hq⟩
      unfold impliesUp
      exact post_bind (computeOrM_in hV (sin_not hV.exact hl.1.st.2.1) hr.1.st.2.2) fun z hz => two hz hV.big hV.big
  | ev s I c ih =>
    rintro ⟨h1, h2⟩
    constructor
    · simp only [computeLow]
      refine post_bind (ih h2).1 fun c' hc => ?_
      refine post_bind (Q := fun r : Signal × ℚ => SIn V r.1 ∧ V r.2) ?_ fun z hz =>
        post_ok ⟨⟨⟨h1.1, hz.1, h1.2.2⟩, hc.1⟩, hz.2⟩
      unfold evLow
      exact post_ite (fun _ => post_bind (append0_in hp h1.2.1 _ hV.negB) fun z hz => post_ok ⟨hz, hV.negB⟩)
        fun _ => post_bind (timedEv_in hV hc.1.st.2.1 _ _ _) fun z hz => tmp hz hV.negB
    · simp only [computeUp]
      refine post_bind (ih h2).2 fun c' hc => ?_
      refine post_bind (Q := fun r : Signal × ℚ => SIn V r.1 ∧ V r.2) ?_ fun z hz =>
        post_ok ⟨⟨⟨h1.1, h1.2.1, hz.1⟩, hc.1⟩, hz.2⟩
      unfold evUp
      exact post_ite (fun _ => post_bind (append0_in hp h1.2.2 _ hV.big) fun z hz => post_ok ⟨hz, hV.big⟩)
        fun _ => post_bind (timedEv_in hV hc.1.st.2.2 _ _ _) fun z hz => tmp hz hV.big
  | alw s I c ih =>
    rintro ⟨h1, h2⟩
    constructor
    · simp only [computeLow]
      refine post_bind (ih h2).1 fun c' hc => ?_
      refine post_bind (Q := fun r : Signal × ℚ => SIn V r.1 ∧ V r.2) ?_ fun z hz =>
        post_ok ⟨⟨⟨h1.1, hz.1, h1.2.2⟩, hc.1⟩, hz.2⟩
      unfold alwLow
      exact post_ite (fun _ => post_bind (append0_in hp h1.2.1 _ hV.negB) fun z hz => post_ok ⟨hz, hV.negB⟩)
        fun _ => post_bind (timedGlob_in hV hc.1.st.2.1 _ _ _) fun z hz => tmp hz hV.negB
    · simp only [computeUp]
      refine post_bind (ih h2).2 fun c' hc => ?_
      refine post_bind (Q := fun r : Signal × ℚ => SIn V r.1 ∧ V r.2) ?_ fun z hz =>
        post_ok ⟨⟨⟨h1.1, h1.2.1, hz.1⟩, hc.1⟩, hz.2⟩
      unfold alwUp
      exact post_ite (fun _ => post_bind (append0_in hp h1.2.2 _ hV.big) fun z hz => post_ok ⟨hz, hV.big⟩)
        fun _ => post_bind (timedGlob_in hV hc.1.st.2.2 _ _ _) fun z hz => tmp hz hV.big
  | untl s l I r ih1 ih2 =>
    rintro ⟨h1, h2, h3⟩
    constructor
    · simp only [computeLow]
      refine post_bind (ih1 h2).1 fun l' hl => ?_
      refine post_ite (fun _ => post_ok ⟨⟨h1, hl.1, h3⟩, hV.negB⟩) fun _ => post_bind (ih2 h3).1 fun r' hr => ?_
      refine post_ite (fun _ => post_ok ⟨⟨h1, hl.1, hr.1⟩, hV.negB⟩) fun _ => ?_
      refine post_bind (Q := fun r : Signal × ℚ => SIn V r.1 ∧ V r.2) ?_ fun z hz =>
        post_ok ⟨⟨⟨h1.1, hz.1, h1.2.2⟩, hl.1, hr.1⟩, hz.2⟩
      unfold untilLow
      refine post_bind (timedUntil_in hV hl.1.st.2.1 hr.1.st.2.1 _ _ _) fun z hz =>
        post_bind (resize_in hV hz _ _ hV.zero) fun z' hz' => ?_
      split
      · exact post_ok ⟨hz', hV.negB⟩
      · rename_i p rs e
        exact post_ok ⟨hz', (hz' p (by simp [e])).1⟩
    · simp only [computeUp]
      refine post_bind (ih1 h2).2 fun l' hl => ?_
      refine post_ite (fun _ => post_ok ⟨⟨h1, hl.1, h3⟩, hV.big⟩) fun _ => post_bind (ih2 h3).2 fun r' hr => ?_
      refine post_ite (fun _ => post_ok ⟨⟨h1, hl.1, hr.1⟩, hV.big⟩) fun _ => ?_
      refine post_bind (Q := fun r : Signal × ℚ => SIn V r.1 ∧ V r.2) ?_ fun z hz =>
        post_ok ⟨⟨⟨h1.1, h1.2.1, hz.1⟩, hl.1, hr.1⟩, hz.2⟩
      unfold untilUp
      refine post_bind (timedUntil_in hV hl.1.st.2.2 hr.1.st.2.2 _ _ _) fun z hz =>
        post_bind (resize_in hV hz _ _ hV.zero) fun z' hz' => ?_
      split
      · exact post_ok ⟨hz', hV.big⟩
      · rename_i p rs e
        exact post_ok ⟨hz', (hz' p (by simp [e])).1⟩
  | _ => intro h; exact h.elim

theorem run3_in (R : Rnd rd) (hd : ∀ r ∈ env.data, ∀ x ∈ r, rd x = x) (hV : Vals rd env.B V) (hD : WellShaped n env.data) (hp : env.ip = .PREVIOUS)
    (hs : env.sem = .SPACE) {T : Tr} (h : FIn rd V n env.data env.params T) :
    Post (fun r => FIn rd V n env.data env.params r.1 ∧ V r.2.1 ∧ V r.2.2.1 ∧ V r.2.2.2) (run3 rd env T) := by
  unfold run3
  refine post_bind (rob_in R hd hV hD hp hs h) fun r1 h1 => ?_
  refine post_bind (low_up_in R hd hV hD hp hs h1.1).1 fun r2 h2 => ?_
  exact post_bind (low_up_in R hd hV hD hp hs h2.1).2 fun r3 h3 => post_ok ⟨h3.1, h1.2, h2.2, h3.2⟩

theorem vals_flSelected (R : Rnd rd) {B : ℚ} (hB : rd B = B) (D : List (List ℚ)) (T : Tr) :
    Vals rd B (FlSelected rd B D P T) := by
  refine ⟨Or.inr (Or.inl rfl), Or.inl rfl, fun x h => ?_, fun x h => ?_⟩
  · unfold FlSelected at h ⊢
    rw [neg_neg]
    rcases h with rfl | rfl | rfl | h | h
    · exact Or.inl neg_zero
    · exact Or.inr (Or.inr (Or.inl rfl))
    · exact Or.inr (Or.inl (neg_neg B))
    · exact Or.inr (Or.inr (Or.inr (Or.inr h)))
    · exact Or.inr (Or.inr (Or.inr (Or.inl h)))
  · have hm : ∀ (T : Tr) {y : ℚ}, FlMarginOf rd D P T y → rd y = y := by
      intro T
      induction T with
      | atom s k l r =>
        rintro y ⟨row, -, rfl⟩
        exact R.idem _
      | not s c ih | ev s I c ih | alw s I c ih => exact fun h => ih h
      | and s l r ih1 ih2 | or s l r ih1 ih2 | implies s l r ih1 ih2 => exact fun h => h.elim ih1 ih2
      | untl s l I r ih1 ih2 => exact fun h => h.elim ih1 ih2
      | _ => exact fun h => h.elim
    rcases h with rfl | rfl | rfl | h | h
    · exact R.zero
    · exact hB
    · exact R.neg _ hB
    · exact hm T h
    · have := R.neg _ (hm T h)
      rwa [neg_neg] at this

theorem flExpr_prepare (h0 : P.lookup "" = none) (row : List ℚ) : ∀ (T : Tr) (s e : ℚ),
    flExpr rd P row (Monitor.prepare P s e T) = flExpr rd P row T := by
  unfold Monitor.prepare
  intro T
  induction T with
  | const _ p v _ =>
    intro s e
    simp only [Tr.setHorizon, Tr.reset, Tr.setTraceData, Tr.setParamMap, flExpr, number, Tr.resolve]
    split_ifs with hp
    · subst hp; rw [h0]
    · rfl
  | abs _ c ih => intro s e; simp only [Tr.setHorizon, Tr.reset, Tr.setTraceData, Tr.setParamMap, flExpr, ih]
  | plus _ l r h1 h2 | minus _ l r h1 h2 | mult _ l r h1 h2 =>
    intro s e; simp only [Tr.setHorizon, Tr.reset, Tr.setTraceData, Tr.setParamMap, flExpr, h1, h2]
  | _ => intro s e; rfl

theorem consts_prepare (h0 : P.lookup "" = none) : ∀ (T : Tr) (s e : ℚ), ExprConsts rd P T →
    ExprConsts rd P (Monitor.prepare P s e T) := by
  unfold Monitor.prepare
  intro T
  induction T with
  | const _ p v _ =>
    intro s e h
    simp only [Tr.setHorizon, Tr.reset, Tr.setTraceData, Tr.setParamMap, ExprConsts, number, Tr.resolve] at h ⊢
    split_ifs at h ⊢ with hp
    · subst hp; rw [h0]; exact h
    · exact h
  | abs _ c ih => exact fun s e h => ih s e h
  | plus _ l r h1 h2 | minus _ l r h1 h2 | mult _ l r h1 h2 => exact fun s e h => ⟨h1 s e h.1, h2 s e h.2⟩
  | atom | not | and | or | implies | ev | alw | untl => exact fun s e h => trivial
  | _ => exact fun s e h => trivial

/-- On expressions no time is computed. -/
theorem prepare_expr : ∀ {T : Tr} (s e : ℚ), IsExpr n T → prepare rd P s e T = Monitor.prepare P s e T := by
  unfold prepare Monitor.prepare
  intro T
  induction T with
  | sig | const => exact fun s e _ => rfl
  | abs _ c ih =>
    intro s e h
    simp only [setHorizon, Tr.setHorizon, Tr.reset, Tr.setTraceData, Tr.setParamMap] at ih ⊢
    rw [ih s e h]
  | plus _ l r h1 h2 | minus _ l r h1 h2 | mult _ l r h1 h2 =>
    intro s e h
    simp only [setHorizon, Tr.setHorizon, Tr.reset, Tr.setTraceData, Tr.setParamMap] at h1 h2 ⊢
    rw [h1 s e h.1, h2 s e h.2]
  | _ => exact fun s e h => h.elim

theorem emptySt_in {s : St} (h1 : s.z = .empty) (h2 : s.zlow = .empty) (h3 : s.zup = .empty) : StIn V s := by
  refine ⟨?_, ?_, ?_⟩ <;> intro p hp <;> simp_all [Signal.empty]

/-- A prepared formula has the invariant. -/
theorem fin_prepare (R : Rnd rd) (h0 : P.lookup "" = none) {D : List (List ℚ)} : ∀ {T : Tr} {S E : ℚ}, rd S = S →
    rd E = E → Declared n T → Consts rd P T → (∀ x, FlMarginOf rd D P T x → V x) →
    FIn rd V n D P (prepare rd P S E T) := by
  have step : ∀ {S E : ℚ}, StIn V { start := S, stop := E, z := .empty, zlow := .empty, zup := .empty } :=
    emptySt_in rfl rfl rfl
  intro T
  induction T with
  | atom s k l r =>
    intro S E hS hE hd hc hm
    show FIn rd V n D P (.atom ⟨S, E, .empty, .empty, .empty⟩ k (prepare rd P S E l) (prepare rd P S E r))
    rw [prepare_expr S E hd.1, prepare_expr S E hd.2]
    refine ⟨step, fun row hr => ?_, isExpr_prepare l S E hd.1, isExpr_prepare r S E hd.2,
      Or.inl ⟨S, E, fresh_prepare P l S E, fresh_prepare P r S E, hS, hE, consts_prepare h0 l S E hc.1,
        consts_prepare h0 r S E hc.2⟩⟩
    rw [flExpr_prepare h0, flExpr_prepare h0]
    exact hm _ ⟨row, hr, rfl⟩
  | not s c ih => exact fun hS hE hd hc hm => ⟨step, ih hS hE hd hc hm⟩
  | ev s I c ih | alw s I c ih => exact fun hS hE hd hc hm => ⟨step, ih (R.idem _) (R.idem _) hd hc hm⟩
  | and s l r ih1 ih2 | or s l r ih1 ih2 | implies s l r ih1 ih2 =>
    exact fun hS hE hd hc hm => ⟨step, ih1 hS hE hd.1 hc.1 fun x hx => hm x (Or.inl hx),
      ih2 hS hE hd.2 hc.2 fun x hx => hm x (Or.inr hx)⟩
  | untl s l I r ih1 ih2 =>
    exact fun hS hE hd hc hm => ⟨step, ih1 hS (R.idem _) hd.1 hc.1 fun x hx => hm x (Or.inl hx),
      ih2 (R.idem _) (R.idem _) hd.2 hc.2 fun x hx => hm x (Or.inr hx)⟩
  | _ => exact fun _ _ hd => hd.elim

end
end Fp
end STLRom
