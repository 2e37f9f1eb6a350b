import Verif.Proofs.LeafFp

/-!
# Signal expressions with rounding, in PREVIOUS mode

As in `Proofs/SelectRun.lean`: every sample of an expression holds its computed value in one row, the
two sides of a comparison hold values of the same row, and a further run leaves the samples as they
are.
-/

namespace STLRom
namespace Fp
open Signal Spec

/-- The signal of every subexpression holds its computed values in the rows of `l`. -/
def FRows (rd : ℚ → ℚ) (P : Assoc ℚ) (l : List (ℚ × List ℚ)) : Tr → Prop
  | .sig s v m td => s.z.samples = sg (fun r => flExpr rd P r (.sig s v m td)) l
  | .const s p v td => s.z.samples = sg (fun r => flExpr rd P r (.const s p v td)) l
  | .abs s c => s.z.samples = sg (fun r => flExpr rd P r (.abs s c)) l ∧ FRows rd P l c
  | .plus s a b => s.z.samples = sg (fun r => flExpr rd P r (.plus s a b)) l ∧ FRows rd P l a ∧ FRows rd P l b
  | .minus s a b => s.z.samples = sg (fun r => flExpr rd P r (.minus s a b)) l ∧ FRows rd P l a ∧ FRows rd P l b
  | .mult s a b => s.z.samples = sg (fun r => flExpr rd P r (.mult s a b)) l ∧ FRows rd P l a ∧ FRows rd P l b
  | _ => False

theorem FRows.samples {rd : ℚ → ℚ} {P : Assoc ℚ} {l : List (ℚ × List ℚ)} {T : Tr} (h : FRows rd P l T) :
    T.st.z.samples = sg (fun r => flExpr rd P r T) l := by
  cases T with
  | sig | const => exact h
  | abs | plus | minus | mult => exact h.1
  | _ => exact h.elim

/-- The leaves hold numbers that the rounding keeps. -/
def LOK (rd : ℚ → ℚ) (P : Assoc ℚ) : Tr → Prop
  | .sig s _ _ _ => KS rd s.z ∧ rd s.start = s.start ∧ rd s.stop = s.stop
  | .const s p v _ => KS rd s.z ∧ rd s.start = s.start ∧ rd s.stop = s.stop ∧ rd (number P p v) = number P p v
  | .abs _ c => LOK rd P c
  | .plus _ l r | .minus _ l r | .mult _ l r => LOK rd P l ∧ LOK rd P r
  | _ => False

theorem number_const {P : Assoc ℚ} {p : String} {v : ℚ} : Tr.constValue P p v = number P p v := rfl

theorem number_twice {P : Assoc ℚ} {p : String} {v : ℚ} :
    number P p (Tr.constValue P p v) = number P p v := by
  unfold number Tr.constValue
  split_ifs <;> rfl

section
variable {rd : ℚ → ℚ} {env : Env} {n : ℕ} {P : Assoc ℚ}

theorem lok_fresh (R : Rnd rd) {S E : ℚ} (hS : rd S = S) (hE : rd E = E) : ∀ {T : Tr}, IsExpr n T →
    Fresh P S E T → ExprConsts rd env.params T → LOK rd env.params T := by
  have hz : ∀ {s : St}, FreshSt S E s → KS rd s.z ∧ rd s.start = s.start ∧ rd s.stop = s.stop := by
    rintro s ⟨rfl, rfl, h, -, -⟩
    rw [h]
    exact ⟨⟨sin_empty, R.zero⟩, hS, hE⟩
  intro T
  induction T with
  | sig s v m td => exact fun _ hf _ => hz hf.1
  | const s p v td => exact fun _ hf hc => ⟨(hz hf.1).1, (hz hf.1).2.1, (hz hf.1).2.2, hc⟩
  | abs s c ih => exact fun he hf hc => ih he hf.2 hc
  | plus s l r ih1 ih2 | minus s l r ih1 ih2 | mult s l r ih1 ih2 =>
    exact fun he hf hc => ⟨ih1 he.1 hf.2.1 hc.1, ih2 he.2 hf.2.2 hc.2⟩
  | _ => exact fun he => he.elim

variable (R : Rnd rd) (hp : env.ip = .PREVIOUS) (hd : ∀ r ∈ env.data, ∀ x ∈ r, rd x = x)
include R hp hd

theorem sig_eq {s : St} {v : String} {m : Assoc ℕ} {td : Option ℕ} (h : LOK rd env.params (.sig s v m td)) :
    computeRob rd env (.sig s v m td) = Tr.computeRob env (.sig s v m td) ∧
      Post (fun r => LOK rd env.params r.1) (Tr.computeRob env (.sig s v m td)) := by
  obtain ⟨h1, h2, h3⟩ := h
  obtain ⟨a1, a2⟩ := sigRob_eq (v := v) (m := m) (td := td) R hp hd h1 h2 h3
  simp only [computeRob, Tr.computeRob, a1]
  exact ⟨trivial, post_bind a2 fun r hr => post_ok ⟨hr, h2, h3⟩⟩

theorem const_eq {s : St} {p : String} {v : ℚ} {td : Option ℕ} (h : LOK rd env.params (.const s p v td)) :
    computeRob rd env (.const s p v td) = Tr.computeRob env (.const s p v td) ∧
      Post (fun r => LOK rd env.params r.1) (Tr.computeRob env (.const s p v td)) := by
  obtain ⟨h1, h2, h3, h4⟩ := h
  obtain ⟨a1, a2⟩ := constRob_eq (td := td) R hp hd (c := Tr.constValue env.params p v) h4 h1 h2 h3
  simp only [computeRob, Tr.computeRob, a1]
  refine ⟨trivial, post_bind a2 fun r hr => post_ok ⟨hr, h2, h3, ?_⟩⟩
  rw [number_twice]
  exact h4

/-- The first run of an expression, if it succeeds. -/
theorem fterm_rows (hD : WellShaped n env.data) {S E : ℚ} (hS : rd S = S) (hE : rd E = E) :
    ∃ l : List (ℚ × List ℚ), (∀ x ∈ l, x.2 ∈ env.data) ∧ ∀ {T T' : Tr} {x : ℚ}, IsExpr n T →
      Fresh P S E T → ExprConsts rd env.params T → computeRob rd env T = .ok (T', x) →
        EInv n env.data T' ∧ FRows rd env.params l T' ∧ (l.map Prod.fst).Pairwise (· < ·) ∧ IsExpr n T' ∧
        LOK rd env.params T' ∧ ∀ row, flExpr rd env.params row T' = flExpr rd env.params row T := by
  obtain ⟨l, hl, hrun⟩ := leaf_rows env.data S E
  refine ⟨l, hl, fun {T} => ?_⟩
  have opz : ∀ {s : St} {f : ℚ → ℚ → ℚ} {l r : Tr} {z : Signal} {p : Sample}, s.z = .empty →
      Tr.binLoop env.ip f s.z l.st.z.samples r.st.z.samples = .ok z → z.front = .ok p →
      OpZ z l.st.z ∧ l.st.z.samples.length ≤ r.st.z.samples.length := by
    intro s f l r z p hz h1 h2
    obtain ⟨a1, a2, a3, _⟩ := binLoop_le env.ip f _ _ _ _ (by simp [hz, Signal.empty]) h1
    exact ⟨⟨front_ne h2, a1, a2⟩, a3⟩
  induction T with
  | sig s v m td =>
    intro T' x he hf hc h
    obtain ⟨q1, q2⟩ := sig_eq R hp hd (lok_fresh (env := env) R hS hE he hf hc)
    rw [q1] at h
    have hL := q2 _ h
    obtain ⟨⟨f1, f2, f3, _, _⟩, rfl⟩ := hf
    obtain ⟨i, hi, hi0, hin⟩ := he
    have hI := sig_run hD f3 h
    simp only [Tr.computeRob] at h
    obtain ⟨⟨z, td, r⟩, h1, h2⟩ := bind_eq_ok.1 h
    simp only [Except.ok.injEq, Prod.mk.injEq] at h2
    obtain ⟨rfl, rfl⟩ := h2
    have hI' := hI
    simp only [EInv, hi, Option.getD_some] at hI'
    obtain ⟨_, _, k, rfl, hk⟩ := hI'.resolve_left (by omega)
    obtain ⟨i, rfl⟩ : ∃ j, i = j + 1 := ⟨i - 1, by omega⟩
    obtain ⟨b, e, k', t, hrun⟩ := hrun hk.data (f2 ▸ hk.nonneg)
    obtain ⟨z0, w, a1, a2⟩ := hrun fun r => r.getD (i + 1) 0
    unfold Tr.sigRob at h1
    simp only [hi, Option.getD_some, f3, List.drop_zero] at h1
    split_ifs at h1
    rw [Tr.sigRead_eq _ _ n _ hin _ _ _ _ _ hD.1, hp, f2, a1] at h1
    simp only [bind, Except.bind, f1, a2 w] at h1
    cases hq : (Signal.mk (sg (fun r => r.getD (i + 1) 0) l) b e).front with
    | error f => rw [hq] at h1; cases h1
    | ok q =>
      rw [hq] at h1
      simp only [Except.ok.injEq, Prod.mk.injEq] at h1
      obtain ⟨rfl, h1, _⟩ := h1
      have hR : FRows rd env.params l (.sig { s with z := ⟨sg (fun r => r.getD (i + 1) 0) l, b, e⟩ } v m (some k)) := by
        simp [FRows, flExpr, hi]
      exact ⟨hI, hR, leafTimes_sg (g := fun r => r.getD (i + 1) 0) hk rfl, ⟨_, hi, hi0, hin⟩, hL, fun row => rfl⟩
  | const s p v td =>
    intro T' x he hf hc h
    obtain ⟨q1, q2⟩ := const_eq R hp hd (lok_fresh (env := env) R hS hE he hf hc)
    rw [q1] at h
    have hL := q2 _ h
    obtain ⟨⟨f1, f2, f3, _, _⟩, rfl⟩ := hf
    have hI := const_run hD f3 h
    simp only [Tr.computeRob] at h
    obtain ⟨⟨z, td⟩, h1, h2⟩ := bind_eq_ok.1 h
    simp only [Except.ok.injEq, Prod.mk.injEq] at h2
    obtain ⟨rfl, rfl⟩ := h2
    obtain ⟨k, rfl, hk⟩ := hI
    obtain ⟨b, e, k', t, hrun⟩ := hrun hk.data (f2 ▸ hk.nonneg)
    obtain ⟨z0, w, a1, a2⟩ := hrun fun _ => Tr.constValue env.params p v
    unfold Tr.constRob at h1
    simp only [f3, List.drop_zero] at h1
    split_ifs at h1
    rw [Tr.constRead_eq _ n _ _ _ _ _ _ 0 hD.1, hp, f2, a1] at h1
    simp only [bind, Except.bind, Except.map, f1, a2, Except.ok.injEq, Prod.mk.injEq] at h1
    obtain ⟨rfl, h1⟩ := h1
    refine ⟨⟨k, rfl, hk⟩, ?_, leafTimes_sg (g := fun _ => Tr.constValue env.params p v) hk rfl, trivial, hL, fun row => ?_⟩
    · simp only [FRows, flExpr, number_twice]; rfl
    · simp only [flExpr, number_twice]
  | abs s c ih =>
    intro T' x he hf hc h
    simp only [computeRob] at h
    obtain ⟨⟨c', y⟩, h1, h⟩ := bind_eq_ok.1 h
    obtain ⟨z, h2, h⟩ := bind_eq_ok.1 h
    obtain ⟨p, h3, h⟩ := bind_eq_ok.1 h
    simp only [Except.ok.injEq, Prod.mk.injEq] at h
    obtain ⟨rfl, rfl⟩ := h
    obtain ⟨a1, a2, a3, a4, a6, a5⟩ := ih he hf.2 hc h1
    rw [hp, absLoop_eq] at h2
    obtain ⟨o1, o2, _⟩ := absLoop_le .PREVIOUS _ _ _ (by simp [hf.1.2.2.1, Signal.empty]) h2
    have hI : OpZ z c'.st.z := ⟨front_ne h3, o1, o2⟩
    rw [hf.1.2.2.1, a2.samples] at h2
    obtain ⟨b', e', h'⟩ := absLoop_sg (l := l) (fun r => flExpr rd env.params r c') [] 0 0 (by simpa using a3) (by simp)
    have h'' : z = _ := Except.ok.inj (h2.symm.trans h')
    subst h''
    exact ⟨⟨hI, a1⟩, ⟨rfl, a2⟩, a3, a4, a6, fun row => by simp only [flExpr, a5]⟩
  | plus s u w ih1 ih2 | minus s u w ih1 ih2 | mult s u w ih1 ih2 =>
    intro T' x he hf hc h
    simp only [computeRob] at h
    obtain ⟨⟨u', y⟩, h1, h⟩ := bind_eq_ok.1 h
    obtain ⟨⟨w', y'⟩, h2, h⟩ := bind_eq_ok.1 h
    obtain ⟨z, h3, h⟩ := bind_eq_ok.1 h
    obtain ⟨p, h4, h⟩ := bind_eq_ok.1 h
    simp only [Except.ok.injEq, Prod.mk.injEq] at h
    obtain ⟨rfl, rfl⟩ := h
    obtain ⟨a1, a2, a3, a4, a6, a5⟩ := ih1 he.1 hf.2.1 hc.1 h1
    obtain ⟨b1, b2, b3, b4, b6, b5⟩ := ih2 he.2 hf.2.2 hc.2 h2
    rw [hp, binLoop_eq, ← hp] at h3
    obtain ⟨o1, o2⟩ := opz hf.1.2.2.1 h3 h4
    rw [hf.1.2.2.1, a2.samples, b2.samples, hp] at h3
    obtain ⟨b', e', h'⟩ := binLoop_sg (l := l) _ (fun r => flExpr rd env.params r u') (fun r => flExpr rd env.params r w')
      [] 0 0 (by simpa using a3) (by simp)
    have h'' : z = _ := Except.ok.inj (h3.symm.trans h')
    subst h''
    exact ⟨⟨o1, o2, a1, b1⟩, ⟨rfl, a2, b2⟩, a3, ⟨a4, b4⟩, ⟨a6, b6⟩, fun row => by simp only [flExpr, a5, b5]⟩
  | _ => intro T' x he; exact he.elim

/-- A further run of an expression in PREVIOUS mode leaves all its samples as they are. -/
theorem fterm_again (hD : WellShaped n env.data) {l : List (ℚ × List ℚ)} :
    ∀ {T T' : Tr} {x : ℚ}, IsExpr n T → EInv n env.data T → FRows rd env.params l T → LOK rd env.params T →
      computeRob rd env T = .ok (T', x) → EInv n env.data T' ∧ FRows rd env.params l T' ∧ IsExpr n T' ∧
        LOK rd env.params T' ∧ ∀ row, flExpr rd env.params row T' = flExpr rd env.params row T := by
  have times_eq : ∀ {T T' : Tr}, FRows rd env.params l T → FRows rd env.params l T' →
      times T'.st.z.samples = times T.st.z.samples := by
    intro T T' h h'
    rw [h.samples, h'.samples, sg_times, sg_times]
  intro T
  induction T with
  | sig s v m td =>
    intro T' x he hI hR hL h
    obtain ⟨q1, q2⟩ := sig_eq R hp hd hL
    rw [q1] at h
    have hL' := q2 _ h
    obtain ⟨T1, x1, c1, c2, _, _⟩ := sig_rerun hD hI
    have hT : T1 = T' := congrArg Prod.fst (Except.ok.inj (c1.symm.trans h))
    subst hT
    obtain ⟨i, hi, hi0, hin⟩ := he
    obtain ⟨i, rfl⟩ : ∃ j, i = j + 1 := ⟨i - 1, by omega⟩
    simp only [EInv, hi, Option.getD_some] at hI
    obtain ⟨_, _, k, rfl, hk⟩ := hI.resolve_left (by omega)
    obtain ⟨z0, k', t, w, a1, a2⟩ := readLoop_same (g := fun r => r.getD (i + 1) 0) hk
    obtain ⟨z', a3, a4⟩ := a2 w
    simp only [Tr.computeRob, Tr.sigRob, hi, Option.getD_some, if_neg (fun e : env.data = [] ∧ 0 ≤ s.stop => hk.data e.1)] at h
    rw [Tr.sigRead_eq _ _ n _ hin _ _ _ _ _ fun r hr => hD.1 r (List.mem_of_mem_drop hr), hp, a1] at h
    simp only [bind, Except.bind, a3] at h
    cases hq : z'.front with
    | error f => rw [hq] at h; cases h
    | ok q =>
      rw [hq] at h
      simp only [Except.ok.injEq, Prod.mk.injEq] at h
      obtain ⟨rfl, rfl⟩ := h
      exact ⟨c2, a4.trans hR, ⟨_, hi, hi0, hin⟩, hL', fun row => rfl⟩
  | const s p v td =>
    intro T' x he hI hR hL h
    obtain ⟨q1, q2⟩ := const_eq R hp hd hL
    rw [q1] at h
    have hL' := q2 _ h
    obtain ⟨T1, x1, c1, c2, _, _⟩ := const_rerun hD hI
    have hT : T1 = T' := congrArg Prod.fst (Except.ok.inj (c1.symm.trans h))
    subst hT
    obtain ⟨k, rfl, hk⟩ := hI
    obtain ⟨z0, k', t, w, a1, a2⟩ := readLoop_same (g := fun _ => Tr.constValue env.params p v) hk
    obtain ⟨z', a3, a4⟩ := a2 (Tr.constValue env.params p v)
    simp only [Tr.computeRob, Tr.constRob, if_neg (fun e : env.data = [] ∧ 0 ≤ s.stop => hk.data e.1)] at h
    rw [Tr.constRead_eq _ n _ _ _ _ _ _ 0 fun r hr => hD.1 r (List.mem_of_mem_drop hr), hp, a1] at h
    simp only [bind, Except.bind, Except.map, a3, Except.ok.injEq, Prod.mk.injEq] at h
    obtain ⟨rfl, rfl⟩ := h
    refine ⟨c2, ?_, trivial, hL', fun row => ?_⟩
    · simp only [FRows, flExpr, number_twice] at hR ⊢
      exact a4.trans hR
    · simp only [flExpr, number_twice]
  | abs s c ih =>
    intro T' x he hI hR hL h
    simp only [computeRob] at h
    obtain ⟨⟨c', y⟩, h1, h⟩ := bind_eq_ok.1 h
    obtain ⟨d1, d2, d3, d5, d4⟩ := ih he hI.2 hR.2 hL h1
    have hle := le_of_times (times_eq hR.2 d2) hI.1.2.2
    obtain ⟨p, hq⟩ := front_ok hI.1.1
    simp only [hp, absLoop_eq, bind, Except.bind, absLoop_skip .PREVIOUS hI.1.1 _ hle, hq, Except.ok.injEq,
      Prod.mk.injEq] at h
    obtain ⟨rfl, rfl⟩ := h
    refine ⟨⟨⟨hI.1.1, hI.1.2.1, hle⟩, d1⟩, ⟨?_, d2⟩, d3, d5, fun row => by simp only [flExpr, d4]⟩
    simp only [flExpr, d4]
    exact hR.1
  | plus s u w ih1 ih2 | minus s u w ih1 ih2 | mult s u w ih1 ih2 =>
    intro T' x he hI hR hL h
    obtain ⟨i1, i2, i3, i4⟩ := hI
    simp only [computeRob] at h
    obtain ⟨⟨u', y⟩, h1, h⟩ := bind_eq_ok.1 h
    obtain ⟨⟨w', y'⟩, h2, h⟩ := bind_eq_ok.1 h
    obtain ⟨d1, d2, d3, d5, d4⟩ := ih1 he.1 i3 hR.2.1 hL.1 h1
    obtain ⟨e1, e2, e3, e5, e4⟩ := ih2 he.2 i4 hR.2.2 hL.2 h2
    have ht1 := times_eq hR.2.1 d2
    have ht2 := times_eq hR.2.2 e2
    have hle := le_of_times ht1 i1.2.2
    have hlen : u'.st.z.samples.length ≤ w'.st.z.samples.length := by
      rw [len_of_times ht1, len_of_times ht2]; exact i2
    obtain ⟨p, hq⟩ := front_ok i1.1
    simp only [hp, binLoop_eq, bind, Except.bind, binLoop_skip .PREVIOUS _ i1.1 _ _ hle hlen, hq, Except.ok.injEq,
      Prod.mk.injEq] at h
    obtain ⟨rfl, rfl⟩ := h
    refine ⟨⟨⟨i1.1, i1.2.1, hle⟩, hlen, d1, e1⟩, ⟨?_, d2, e2⟩, ⟨d3, e3⟩, ⟨d5, e5⟩,
      fun row => by simp only [flExpr, d4, e4]⟩
    simp only [flExpr, d4, e4]
    exact hR.1
  | _ => intro T' x he; exact he.elim

end
end Fp
end STLRom
