import Verif.Proofs.Affine
import Verif.Proofs.Select
import Verif.Proofs.ExprEval
import Verif.Spec.Affine

/-!
# Evaluation of moved and multiplied traces

The model follows an evaluation of a trace whose rows are moved by `c` and multiplied by
`k` step by step, next to the evaluation of the trace itself.
-/

namespace STLRom
open Spec

theorem bind_af {α β α' β' : Type} {x : M α} {x' : M α'} {g : α → M β} {g' : α' → M β'} (f : α → α')
    {h : β → β'} (hx : x' = x.map f) (hg : ∀ a, x = .ok a → g' (f a) = (g a).map h) :
    (x' >>= g') = (x >>= g).map h := by
  subst hx
  cases x with
  | error e => rfl
  | ok a => exact hg a rfl

namespace Signal

variable {c k : ℚ}

theorem front_ne {x : Signal} {p : Sample} (h : front x = .ok p) : x.samples ≠ [] := by
  intro h0
  simp [front, h0] at h

theorem append_end_le {ip : Interpol} {x y : Signal} {t v d : ℚ} (h : appendSample ip x t v d = .ok y) :
    y.samples ≠ [] ∧ t ≤ y.endTime := by
  unfold appendSample at h
  by_cases h1 : t ≤ x.endTime ∧ x.samples ≠ []
  · rw [if_pos h1] at h
    cases h
    exact ⟨h1.2, h1.1⟩
  · rw [if_neg h1] at h
    cases ip with
    | PREVIOUS =>
      simp only at h
      split_ifs at h
      · cases h
        simp
      · cases h
        simp
    | LINEAR =>
      simp only at h
      cases hl : x.samples.getLast? with
      | none =>
        rw [hl] at h
        cases h
        simp
      | some b =>
        rw [hl] at h
        obtain ⟨d', -, h⟩ := bind_eq_ok.1 h
        cases h
        simp

theorem resize_end_le {x y : Signal} {s t v : ℚ} (h : resize x s t v = .ok y) :
    y.samples = [] ∨ s ≤ y.endTime := by
  unfold resize at h
  split_ifs at h with h1 h2
  · cases h
    exact .inl rfl
  all_goals
    obtain ⟨x1, -, h⟩ := bind_eq_ok.1 h
    unfold resizeBack at h
    obtain ⟨l, -, h⟩ := bind_eq_ok.1 h
    cases h
    right
    simp only
    linarith

end Signal

namespace Tr
open Signal

variable {c k : ℚ}

theorem cell_zero (row : List ℚ) : cell (movedRow c k row) 0 = (cell row 0).map (· + c) := by
  cases row <;> rfl

theorem cell_succ (row : List ℚ) (i : ℕ) : cell (movedRow c k row) (i + 1) = (cell row (i + 1)).map (k * ·) := by
  cases row with
  | nil => rfl
  | cons t vs =>
    simp only [cell, movedRow, List.getElem?_cons_succ, List.getElem?_map]
    cases vs[i]? <;> rfl

theorem sigRead_af (ip : Interpol) (i : ℕ) (stop : ℚ) : ∀ (rows : List (List ℚ)) (z : Signal) (td : ℕ) (t v : ℚ),
    sigRead ip (i + 1) (stop + c) (moved c k rows) (af0 c k z) td (t + c) (k * v) =
      (sigRead ip (i + 1) stop rows z td t v).map fun r => (af0 c k r.1, r.2.1, r.2.2.1 + c, k * r.2.2.2)
  | [], _, _, _, _ => rfl
  | row :: rows, z, td, t, v => by
    simp only [moved, List.map_cons, sigRead, add_le_add_iff_right]
    split_ifs
    · refine bind_af _ (cell_zero row) fun t' _ => bind_af _ (cell_succ row i) fun v' _ =>
        bind_af _ (appendSample0_af ip z t' v') fun z' _ => ?_
      exact sigRead_af ip i stop rows z' (td + 1) t' v'
    · rfl

theorem sigRead_keep {ip : Interpol} {i : ℕ} {stop : ℚ} : ∀ {rows : List (List ℚ)} {z : Signal} {td : ℕ} {t v : ℚ},
    z.samples ≠ [] → Post (fun r => r.1.samples ≠ []) (sigRead ip i stop rows z td t v)
  | [], _, _, _, _, h => post_ok h
  | row :: rows, z, td, t, v, h => by
    rw [sigRead]
    refine post_ite (fun _ => ?_) fun _ => post_ok h
    refine post_bind' fun t' => post_bind' fun v' => post_bind (Q := fun z' => z'.samples ≠ [])
      (fun z' hz' => (append_end_le hz').1) fun z' hz' => ?_
    exact sigRead_keep hz'

theorem sigRead_ne {ip : Interpol} {i : ℕ} {stop : ℚ} {row : List ℚ} {rows : List (List ℚ)} {z : Signal} {td : ℕ}
    {t v : ℚ} (h : t ≤ stop) : Post (fun r => r.1.samples ≠ []) (sigRead ip i stop (row :: rows) z td t v) := by
  rw [sigRead, if_pos h]
  refine post_bind' fun t' => post_bind' fun v' => post_bind (Q := fun z' => z'.samples ≠ [])
    (fun z' hz' => (append_end_le hz').1) fun z' hz' => ?_
  exact sigRead_keep hz'

theorem constRead_keep {ip : Interpol} {v stop : ℚ} : ∀ {rows : List (List ℚ)} {z : Signal} {td : ℕ} {t : ℚ},
    z.samples ≠ [] → Post (fun r => r.1.samples ≠ []) (constRead ip v stop rows z td t)
  | [], _, _, _, h => post_ok h
  | row :: rows, z, td, t, h => by
    rw [constRead]
    refine post_ite (fun _ => ?_) fun _ => post_ok h
    refine post_bind' fun t' => post_bind (Q := fun z' => z'.samples ≠ [])
      (fun z' hz' => (append_end_le hz').1) fun z' hz' => ?_
    exact constRead_keep hz'

theorem constRead_ne {ip : Interpol} {v stop : ℚ} {row : List ℚ} {rows : List (List ℚ)} {z : Signal} {td : ℕ}
    {t : ℚ} (h : t ≤ stop) : Post (fun r => r.1.samples ≠ []) (constRead ip v stop (row :: rows) z td t) := by
  rw [constRead, if_pos h]
  refine post_bind' fun t' => post_bind (Q := fun z' => z'.samples ≠ [])
    (fun z' hz' => (append_end_le hz').1) fun z' hz' => ?_
  exact constRead_keep hz'

theorem constRead_af (ip : Interpol) (v stop : ℚ) : ∀ (rows : List (List ℚ)) (z : Signal) (td : ℕ) (t : ℚ),
    constRead ip (k * v) (stop + c) (moved c k rows) (af0 c k z) td (t + c) =
      (constRead ip v stop rows z td t).map fun r => (af0 c k r.1, r.2.1, r.2.2 + c)
  | [], _, _, _ => rfl
  | row :: rows, z, td, t => by
    simp only [moved, List.map_cons, constRead, add_le_add_iff_right]
    split_ifs
    · refine bind_af _ (cell_zero row) fun t' _ =>
        bind_af _ (appendSample0_af ip z t' v) fun z' _ => ?_
      exact constRead_af ip v stop rows z' (td + 1) t'
    · rfl

theorem max_af (a b : ℚ) : max (a + c) (b + c) = max a b + c := by
  rw [max_add_add_right]

theorem min_af (a b : ℚ) : min (a + c) (b + c) = min a b + c := by
  rw [min_add_add_right]

theorem leafTrim_af (hk : 0 < k) (start stop : ℚ) (z : Signal) (hz : c = 0 ∨ z.samples ≠ []) (t v : ℚ) :
    leafTrim (start + c) (stop + c) (af0 c k z) (t + c) (k * v) = (leafTrim start stop z t v).map (af0 c k) := by
  unfold leafTrim
  simp only [add_lt_add_iff_right]
  have e : (if stop < t then { af0 c k z with endTime := stop + c } else af0 c k z) =
      afs c k (if stop < t then { z with endTime := stop } else z) := by
    rw [af0_eq hz]
    split_ifs <;> rfl
  rw [e]
  generalize (if stop < t then { z with endTime := stop } else z) = y
  have e2 : (afs c k y).endTime = y.endTime + c := rfl
  simp only [e2, add_lt_add_iff_right, max_af]
  split_ifs
  · exact resize_afs hk y _ _ _
  · exact resize_afs hk y _ _ _

theorem leafTrim_ne {start stop t v : ℚ} {z y : Signal} (h : leafTrim start stop z t v = .ok y) :
    y.samples ≠ [] := by
  have htol : (0 : ℚ) < tol := by unfold tol; norm_num
  unfold leafTrim at h
  simp only at h
  generalize (if stop < t then { z with endTime := stop } else z) = x at h
  split_ifs at h
  · refine resize_ne h ?_
    have := le_max_left start x.endTime
    linarith
  · exact resize_ne h (by linarith)

theorem leafTrim_time {start stop t t' v : ℚ} {z : Signal} (h : stop < t ↔ stop < t') :
    leafTrim start stop z t v = leafTrim start stop z t' v := by
  simp only [leafTrim, h]

/-- What makes a leaf move with its trace. -/
def AfLeaf (c : ℚ) (n : ℕ) (s : St) (td : Option ℕ) : Prop :=
  0 ≤ s.stop ∧ 0 ≤ s.stop + c ∧ (n = 0 ∨ s.z.samples ≠ [] ∨ ∀ i, td = some i → i < n)

/-- A leaf. -/
def leafB : Tr → Bool
  | sig _ _ _ _ | const _ _ _ _ => true
  | _ => false

/-- The same bounds under two parameter maps. -/
def SameI (P P' : Assoc ℚ) (I : Ival) : Prop := ivA P' I = ivA P I ∧ ivB P' I = ivB P I

/-- What makes the nodes of a tree move with the trace. -/
def AfOk (c k : ℚ) (n : ℕ) (P P' : Assoc ℚ) : Tr → Prop
  | sig s v m td => c = 0 ∨ AfLeaf c n s td ∧ (s.z.samples ≠ [] ∨ (m.lookup v).getD 0 ≠ 0)
  | const s p _ td =>
    (p = "" ∨ (P'.lookup p).getD 0 = k * (P.lookup p).getD 0) ∧ (c = 0 ∨ AfLeaf c n s td)
  | abs _ x => AfOk c k n P P' x
  | plus _ l r | minus _ l r | atom _ _ l r | and _ l r | or _ l r | implies _ l r =>
    AfOk c k n P P' l ∧ AfOk c k n P P' r
  | mult _ l r => k = 1 ∧ AfOk c k n P P' l ∧ AfOk c k n P P' r
  | not s x => AfOk c k n P P' x ∧ x.st.start = s.start
  | ev s I x | alw s I x => AfOk c k n P P' x ∧ SameI P P' I ∧
    (c = 0 ∨ leafB x = false ∧ 0 ≤ s.start ∧ 0 ≤ s.start + c ∧ x.st.start = s.start + ivA P I)
  | untl _ l I r => c = 0 ∧ SameI P P' I ∧ AfOk c k n P P' l ∧ AfOk c k n P P' r

/-- The state of a node moved and multiplied. -/
def afSt (c k : ℚ) (s : St) : St :=
  ⟨s.start + c, s.stop + c, af0 c k s.z, af0 c k s.zlow, af0 c k s.zup⟩

/-- A tree moved and multiplied. -/
def aft (c k : ℚ) : Tr → Tr
  | sig s v m t => sig (afSt c k s) v m t
  | const s p v t => const (afSt c k s) p (k * v) t
  | abs s x => abs (afSt c k s) (aft c k x)
  | plus s l r => plus (afSt c k s) (aft c k l) (aft c k r)
  | minus s l r => minus (afSt c k s) (aft c k l) (aft c k r)
  | mult s l r => mult (afSt c k s) (aft c k l) (aft c k r)
  | atom s o l r => atom (afSt c k s) o (aft c k l) (aft c k r)
  | not s x => not (afSt c k s) (aft c k x)
  | and s l r => and (afSt c k s) (aft c k l) (aft c k r)
  | or s l r => or (afSt c k s) (aft c k l) (aft c k r)
  | implies s l r => implies (afSt c k s) (aft c k l) (aft c k r)
  | ev s I x => ev (afSt c k s) I (aft c k x)
  | alw s I x => alw (afSt c k s) I (aft c k x)
  | untl s l I r => untl (afSt c k s) (aft c k l) I (aft c k r)

@[simp] theorem aft_st (T : Tr) : (aft c k T).st = afSt c k T.st := by cases T <;> rfl

theorem aft_setSt (s : St) (T : Tr) : (aft c k T).setSt (afSt c k s) = aft c k (T.setSt s) := by
  cases T <;> rfl

/-- The environment moved and multiplied. -/
def afEnv (c k : ℚ) (P' : Assoc ℚ) (env : Env) : Env :=
  ⟨k * env.B, env.sem, env.ip, moved c k env.data, P'⟩

variable {P' : Assoc ℚ} {env : Env}

theorem moved_drop (n : ℕ) (D : List (List ℚ)) : (moved c k D).drop n = moved c k (D.drop n) := by
  simp [moved]

theorem sigRob_af (hk : 0 < k) (s : St) (v : String) (m : Assoc ℕ) (td : Option ℕ)
    (h : c = 0 ∨ AfLeaf c env.data.length s td ∧ (s.z.samples ≠ [] ∨ (m.lookup v).getD 0 ≠ 0)) :
    sigRob (afEnv c k P' env) (afSt c k s) v m td =
      (sigRob env s v m td).map fun r => (af0 c k r.1, r.2.1, k * r.2.2) := by
  unfold sigRob
  have hfin : ∀ (z : Signal) (td : Option ℕ),
      ((do let p ← (af0 c k z).front; .ok (af0 c k z, td, p.value)) : M (Signal × Option ℕ × ℚ)) =
        ((do let p ← z.front; .ok (z, td, p.value)) : M (Signal × Option ℕ × ℚ)).map
          fun r => (af0 c k r.1, r.2.1, k * r.2.2) := by
    intro z td
    refine bind_af _ (front_af0 z) fun p _ => ?_
    simp [Except.map]
  have hz0 : ∀ z : Signal, (c = 0 ∨ z.samples ≠ []) → (c = 0 ∨ 0 ≤ s.stop ∧ 0 ≤ s.stop + c) →
      leafTrim (s.start + c) (s.stop + c) (af0 c k z) 0 0 = (leafTrim s.start s.stop z 0 0).map (af0 c k) := by
    intro z hz hs
    rcases hs with rfl | ⟨h1, h2⟩
    · have := leafTrim_af (c := 0) hk s.start s.stop z (.inl rfl) 0 0
      rw [mul_zero, add_zero 0] at this
      exact this
    · rw [leafTrim_time (t := 0) (t' := s.stop + c) (by constructor <;> intro h <;> linarith),
        leafTrim_time (t := 0) (t' := s.stop) (by constructor <;> intro h <;> linarith)]
      have := leafTrim_af (c := c) hk s.start s.stop z hz s.stop 0
      rw [mul_zero] at this
      exact this
  cases hi : (m.lookup v).getD 0 with
  | zero =>
    refine bind_af _ (hz0 s.z ?_ ?_) fun z _ => hfin z td
    · rcases h with h | ⟨-, h | h⟩
      · exact .inl h
      · exact .inr h
      · exact absurd hi h
    · exact h.imp_right fun h => ⟨h.1.1, h.1.2.1⟩
  | succ i =>
    cases td with
    | none => rfl
    | some td =>
      have hd : (afEnv c k P' env).data = [] ↔ env.data = [] := by simp [afEnv, moved]
      have hs : (0 ≤ (afSt c k s).stop) ↔ 0 ≤ s.stop + c := Iff.rfl
      simp only [hd]
      by_cases hD : env.data = [] ∧ 0 ≤ s.stop
      · have : env.data = [] ∧ 0 ≤ (afSt c k s).stop := by
          refine ⟨hD.1, ?_⟩
          rcases h with rfl | h
          · rw [hs, add_zero]
            exact hD.2
          · exact h.1.2.1
        rw [if_pos this, if_pos hD]
        rfl
      · have : ¬ (env.data = [] ∧ 0 ≤ (afSt c k s).stop) := by
          rintro ⟨h1, h2⟩
          refine hD ⟨h1, ?_⟩
          rcases h with rfl | h
          · rw [hs, add_zero] at h2
            exact h2
          · exact h.1.1
        rw [if_neg this, if_neg hD]
        have e1 : (afEnv c k P' env).data.drop td = moved c k (env.data.drop td) := moved_drop td env.data
        rw [e1]
        rcases h with rfl | ⟨⟨h1, h2, h3⟩, h4⟩
        · have hr := sigRead_af (c := 0) (k := k) env.ip i s.stop (env.data.drop td) s.z td 0 0
          rw [mul_zero, add_zero 0] at hr
          refine bind_af _ hr fun r _ => ?_
          refine bind_af _ (leafTrim_af hk s.start s.stop r.1 (.inl rfl) _ _) fun z _ => hfin z _
        · cases hrows : env.data.drop td with
          | nil =>
            have hz : s.z.samples ≠ [] := by
              rcases h3 with h3 | h3 | h3
              · exact absurd ⟨List.length_eq_zero_iff.1 h3, h1⟩ hD
              · exact h3
              · have := h3 td rfl
                have := List.drop_eq_nil_iff.1 hrows
                omega
            refine bind_af (x := (.ok (s.z, td, 0, 0) : M (Signal × ℕ × ℚ × ℚ)))
              (fun r => (af0 c k r.1, r.2.1, r.2.2.1, r.2.2.2)) rfl fun r hr => ?_
            cases hr
            exact bind_af _ (hz0 s.z (.inr hz) (.inr ⟨h1, h2⟩)) fun z _ => hfin z _
          | cons row rows =>
            have q1 : ∀ (ip : Interpol) (i : ℕ) (stop : ℚ) (row : List ℚ) (rows : List (List ℚ)) (z : Signal),
                0 ≤ stop → sigRead ip i stop (row :: rows) z td 0 0 =
                  sigRead ip i stop (row :: rows) z td stop 0 := by
              intro ip i stop row rows z h
              simp only [sigRead, h, le_refl, if_true]
            have hr := sigRead_af (c := c) (k := k) env.ip i s.stop (row :: rows) s.z td s.stop 0
            rw [← q1 _ _ _ _ _ _ h1, mul_zero] at hr
            rw [show moved c k (row :: rows) = movedRow c k row :: moved c k rows from rfl] at hr ⊢
            rw [← q1 _ _ _ _ _ _ h2] at hr
            refine bind_af _ hr fun r hrok => ?_
            refine bind_af _ (leafTrim_af hk s.start s.stop r.1 (.inr ?_) _ _) fun z _ => hfin z _
            exact sigRead_ne h1 _ hrok

theorem constRob_af (hk : 0 < k) (s : St) (v : ℚ) (td : Option ℕ)
    (h : c = 0 ∨ AfLeaf c env.data.length s td) :
    constRob (afEnv c k P' env) (afSt c k s) (k * v) td =
      (constRob env s v td).map fun r => (af0 c k r.1, r.2) := by
  unfold constRob
  cases td with
  | none => rfl
  | some td =>
    have hd : (afEnv c k P' env).data = [] ↔ env.data = [] := by simp [afEnv, moved]
    have hs : (0 ≤ (afSt c k s).stop) ↔ 0 ≤ s.stop + c := Iff.rfl
    simp only [hd]
    by_cases hD : env.data = [] ∧ 0 ≤ s.stop
    · have : env.data = [] ∧ 0 ≤ (afSt c k s).stop := by
        refine ⟨hD.1, ?_⟩
        rcases h with rfl | h
        · rw [hs, add_zero]
          exact hD.2
        · exact h.2.1
      rw [if_pos this, if_pos hD]
      rfl
    · have : ¬ (env.data = [] ∧ 0 ≤ (afSt c k s).stop) := by
        rintro ⟨h1, h2⟩
        refine hD ⟨h1, ?_⟩
        rcases h with rfl | h
        · rw [hs, add_zero] at h2
          exact h2
        · exact h.1
      rw [if_neg this, if_neg hD]
      have e1 : (afEnv c k P' env).data.drop td = moved c k (env.data.drop td) := moved_drop td env.data
      rw [e1]
      rcases h with rfl | ⟨h1, h2, h3⟩
      · have hr := constRead_af (c := 0) (k := k) env.ip v s.stop (env.data.drop td) s.z td 0
        rw [add_zero 0] at hr
        refine bind_af _ hr fun r _ => ?_
        exact bind_af _ (leafTrim_af hk s.start s.stop r.1 (.inl rfl) _ _) fun z _ => rfl
      · cases hrows : env.data.drop td with
        | nil =>
          have hz : s.z.samples ≠ [] := by
            rcases h3 with h3 | h3 | h3
            · exact absurd ⟨List.length_eq_zero_iff.1 h3, h1⟩ hD
            · exact h3
            · have := h3 td rfl
              have := List.drop_eq_nil_iff.1 hrows
              omega
          refine bind_af (x := (.ok (s.z, td, 0) : M (Signal × ℕ × ℚ)))
            (fun r => (af0 c k r.1, r.2.1, r.2.2)) rfl fun r hr => ?_
          cases hr
          refine bind_af (af0 c k) ?_ fun z _ => rfl
          have := leafTrim_af (c := c) hk s.start s.stop s.z (.inr hz) s.stop v
          rw [leafTrim_time (t := s.stop) (t' := 0) (by constructor <;> intro h <;> linarith),
            leafTrim_time (t := s.stop + c) (t' := 0) (by constructor <;> intro h <;> linarith)] at this
          exact this
        | cons row rows =>
          have q1 : ∀ (ip : Interpol) (v : ℚ) (stop : ℚ) (row : List ℚ) (rows : List (List ℚ)) (z : Signal),
              0 ≤ stop → constRead ip v stop (row :: rows) z td 0 =
                constRead ip v stop (row :: rows) z td stop := by
            intro ip i stop row rows z h
            simp only [constRead, h, le_refl, if_true]
          have hr := constRead_af (c := c) (k := k) env.ip v s.stop (row :: rows) s.z td s.stop
          rw [← q1 _ _ _ _ _ _ h1] at hr
          rw [show moved c k (row :: rows) = movedRow c k row :: moved c k rows from rfl] at hr ⊢
          rw [← q1 _ _ _ _ _ _ h2] at hr
          refine bind_af _ hr fun r hrok => ?_
          refine bind_af _ (leafTrim_af hk s.start s.stop r.1 (.inr ?_) _ _) fun z _ => rfl
          exact constRead_ne h1 _ hrok

theorem constRob_ne {s : St} {v : ℚ} {td : Option ℕ} :
    Post (fun r => r.1.samples ≠ []) (constRob env s v td) := by
  unfold constRob
  cases td with
  | none => exact post_error
  | some td =>
    refine post_ite (fun _ => post_error) fun _ => ?_
    exact post_bind' fun r => post_bind (fun z hz => leafTrim_ne hz) fun z hz => post_ok hz

theorem binLoop_af (ip : Interpol) (f : ℚ → ℚ → ℚ) (hf : ∀ a b, f (k * a) (k * b) = k * f a b) :
    ∀ (ps qs : List Sample) (z : Signal),
    binLoop ip f (af0 c k z) (afl c k ps) (afl c k qs) = (binLoop ip f z ps qs).map (af0 c k)
  | [], _, _ => rfl
  | _ :: _, [], _ => rfl
  | p :: ps, q :: qs, z => by
    simp only [List.map_cons, binLoop, Sample.af_time, Sample.af_value, hf]
    exact bind_af _ (appendSample0_af ip z _ _) fun z' _ => binLoop_af ip f hf ps qs z'

theorem absLoop_af (hk : 0 < k) (ip : Interpol) : ∀ (ps : List Sample) (z : Signal),
    absLoop ip (af0 c k z) (afl c k ps) = (absLoop ip z ps).map (af0 c k)
  | [], _ => rfl
  | p :: ps, z => by
    simp only [List.map_cons, absLoop, Sample.af_time, Sample.af_value, abs_mul, abs_of_pos hk]
    exact bind_af _ (appendSample0_af ip z _ _) fun z' _ => absLoop_af hk ip ps z'

theorem atomLoop_af (ip : Interpol) (o : Cmp) : ∀ (ps qs : List Sample) (z : Signal),
    atomLoop ip o (af0 c k z) (afl c k ps) (afl c k qs) = (atomLoop ip o z ps qs).map (af0 c k)
  | [], _, _ => rfl
  | _ :: _, [], _ => rfl
  | p :: ps, q :: qs, z => by
    simp only [List.map_cons, atomLoop, Sample.af_time, Sample.af_value, Sample.af_derivative,
      ← mul_sub]
    refine bind_af _ ?_ fun z' _ => atomLoop_af ip o ps qs z'
    cases o
    · exact appendSample_af ip z _ _ _
    · exact appendSample_af ip z _ _ _

theorem atomLoop_keep {ip : Interpol} {o : Cmp} : ∀ {ps qs : List Sample} {z : Signal}, z.samples ≠ [] →
    Post (fun z' => z'.samples ≠ []) (atomLoop ip o z ps qs)
  | [], _, _, h => post_ok h
  | _ :: _, [], _, h => post_ok h
  | p :: ps, q :: qs, z, h => by
    unfold atomLoop
    refine post_bind (Q := fun z' : Signal => z'.samples ≠ []) ?_ fun z' hz' => atomLoop_keep hz'
    cases o
    · exact fun z' hz' => (append_end_le hz').1
    · exact fun z' hz' => (append_end_le hz').1

theorem atomLoop_ne {ip : Interpol} {o : Cmp} {ps qs : List Sample} {z : Signal} (h1 : ps ≠ []) (h2 : qs ≠ []) :
    Post (fun z' => z'.samples ≠ []) (atomLoop ip o z ps qs) := by
  cases ps with
  | nil => exact absurd rfl h1
  | cons p ps =>
    cases qs with
    | nil => exact absurd rfl h2
    | cons q qs =>
      unfold atomLoop
      refine post_bind (Q := fun z' : Signal => z'.samples ≠ []) ?_ fun z' hz' => atomLoop_keep hz'
      cases o
      · exact fun z' hz' => (append_end_le hz').1
      · exact fun z' hz' => (append_end_le hz').1

theorem front_fin {α : Type} (f : α → α) (g g' : Signal → α) (hg : ∀ z, g' (af0 c k z) = f (g z)) (z : Signal) :
    (do let p ← (af0 c k z).front; .ok (g' (af0 c k z), p.value) : M (α × ℚ)) =
      (do let p ← z.front; .ok (g z, p.value) : M (α × ℚ)).map fun r => (f r.1, k * r.2) := by
  refine bind_af _ (front_af0 z) fun p _ => ?_
  simp [Except.map, hg]

theorem front_fin' {α : Type} (f : α → α) (g g' : Signal → α) (hg : ∀ z, g' (af0 c k z) = f (g z)) (z : Signal) :
    (do let p ← (afs c k z).front; .ok (g' (afs c k z), p.value) : M (α × ℚ)) =
      (do let p ← z.front; .ok (g z, p.value) : M (α × ℚ)).map fun r => (f r.1, k * r.2) := by
  by_cases hz : z.samples = []
  · simp [front, hz, afs, bind, Except.bind, Except.map]
  · rw [← front_fin f g g' hg z, af0_ne hz]

theorem atomRob_af {α : Type} (f : α → α) (g g' : Signal → α) (hg : ∀ z, g' (af0 c k z) = f (g z))
    (hs : k = 1 ∨ env.sem = .SPACE) (o : Cmp) (z zl zr : Signal)
    (hl : zl.samples ≠ []) (hr : zr.samples ≠ []) :
    (do let y ← atomRob (afEnv c k P' env) o (af0 c k z) (af0 c k zl) (af0 c k zr); let p ← y.front;
        .ok (g' y, p.value) : M (α × ℚ)) =
      (do let y ← atomRob env o z zl zr; let p ← y.front; .ok (g y, p.value) : M (α × ℚ)).map
        fun r => (f r.1, k * r.2) := by
  have hfin' := front_fin' f g g' hg
  unfold atomRob
  simp only [bind_assoc]
  rw [af0_samples, af0_samples]
  refine bind_af (af0 c k) (atomLoop_af env.ip o _ _ _) fun y hy => ?_
  have hne := atomLoop_ne hl hr _ hy
  have e : ({ af0 c k y with endTime := (af0 c k zl).endTime } : Signal) = afs c k { y with endTime := zl.endTime } := by
    rw [af0_ne hne, af0_ne hl]
    rfl
  simp only [e]
  generalize ({ y with endTime := zl.endTime } : Signal) = x
  rcases hs with rfl | hs
  · have hsem : (afEnv c 1 P' env).sem = env.sem := rfl
    simp only [hsem]
    cases env.sem with
    | SPACE => exact hfin' x
    | LEFT_TIME => exact bind_af _ (computeLeftTimeRob_af x) fun z _ => hfin' z
    | RIGHT_TIME => exact bind_af _ (computeRightTimeRob_af x) fun z _ => hfin' z
    | BOOLEAN => rfl
  · have hsem : (afEnv c k P' env).sem = env.sem := rfl
    simp only [hsem, hs]
    exact hfin' x

theorem andRob_af (hk : 0 < k) (x y : Signal) : andRob (afs c k x) (afs c k y) = (andRob x y).map (afs c k) := by
  unfold andRob
  have : max (afs c k x).endTime (afs c k y).endTime = max x.endTime y.endTime + c := max_af _ _
  simp only [this]
  exact computeAndM_af hk { x with endTime := max x.endTime y.endTime }
    { y with endTime := max x.endTime y.endTime }

theorem orRob_af (hk : 0 < k) (x y : Signal) : orRob (afs c k x) (afs c k y) = (orRob x y).map (afs c k) := by
  unfold orRob
  have : max (afs c k x).endTime (afs c k y).endTime = max x.endTime y.endTime + c := max_af _ _
  simp only [this]
  exact computeOrM_af hk { x with endTime := max x.endTime y.endTime }
    { y with endTime := max x.endTime y.endTime }

theorem evRob_af (hk : 0 < k) (B : ℚ) (s : St) (a b : ℚ) (x : Signal) (hx : x.samples ≠ []) :
    evRob (k * B) (afSt c k s) a b (afs c k x) =
      (evRob B s a b x).map fun r => (af0 c k r.1, af0 c k r.2) := by
  unfold evRob
  refine bind_af _ (computeTimedEventually_af hk B s.z _ x hx a b) fun z _ => ?_
  have e1 : min (afs c k z).endTime (afSt c k s).stop = min z.endTime s.stop + c := min_af _ _
  have e2 : min z.endTime s.stop + c - b = min z.endTime s.stop - b + c := by ring
  simp only [e1, e2]
  have h1 := resize_afs (c := c) hk x (min z.endTime s.stop - b) x.endTime 0
  have h2 := resize_afs (c := c) hk z s.start (max s.start (min z.endTime s.stop)) 0
  rw [mul_zero] at h1 h2
  rw [← max_af] at h2
  exact bind_af _ h1 fun x' _ => bind_af _ h2 fun z' _ => rfl

theorem alwRob_af (hk : 0 < k) (B : ℚ) (s : St) (a b : ℚ) (x : Signal) (hx : x.samples ≠ []) :
    alwRob (k * B) (afSt c k s) a b (afs c k x) = (alwRob B s a b x).map (af0 c k) := by
  unfold alwRob
  refine bind_af _ (computeTimedGlobally_af hk B s.z _ x hx a b) fun z _ => ?_
  have e1 : min (afs c k z).endTime (afSt c k s).stop = min z.endTime s.stop + c := min_af _ _
  simp only [e1]
  have h2 := resize_afs (c := c) hk z s.start (max s.start (min z.endTime s.stop)) 0
  rw [mul_zero, ← max_af] at h2
  exact h2

theorem untilRob_af (hk : 0 < k) (B : ℚ) (s : St) (a b : ℚ) (x y : Signal) :
    untilRob (k * B) (afSt 0 k s) a b (afs 0 k x) (afs 0 k y) = (untilRob B s a b x y).map (af0 0 k) := by
  unfold untilRob
  have hz : (afSt 0 k s).z = afs 0 k s.z := af0_eq (.inl rfl)
  rw [hz]
  refine bind_af _ (computeTimedUntil_af hk B s.z x y a b) fun z _ => ?_
  have h := resize_afs (c := 0) hk z 0 z.endTime 0
  rw [mul_zero, add_zero 0] at h
  exact h

theorem constValue_af {P : Assoc ℚ} {p : String} {v : ℚ}
    (h : p = "" ∨ (P'.lookup p).getD 0 = k * (P.lookup p).getD 0) :
    constValue P' p (k * v) = k * constValue P p v := by
  unfold constValue
  split_ifs with h0
  · rfl
  · exact h.resolve_left h0

/-- What a computation keeps. -/
def Kept (c k : ℚ) (n : ℕ) (P P' : Assoc ℚ) (T T' : Tr) : Prop :=
  AfOk c k n P P' T' ∧ T'.st.start = T.st.start ∧ leafB T' = leafB T ∧
    (T.st.z.samples ≠ [] → T'.st.z.samples ≠ [])

theorem post_front {α : Type} {P : α × ℚ → Prop} {z : Signal} {g : α}
    (h : z.samples ≠ [] → ∀ v, P (g, v)) :
    Post P (do let p ← z.front; .ok (g, p.value) : M (α × ℚ)) :=
  post_bind (Q := fun _ => z.samples ≠ []) (fun _ hp => front_ne hp) fun _ hz => post_ok (h hz _)

theorem afOk_setZ {n : ℕ} {P P' : Assoc ℚ} (z : Signal) (T : Tr) (hl : c = 0 ∨ leafB T = false)
    (h : AfOk c k n P P' T) : AfOk c k n P P' (setZ z T) := by
  cases T with
  | sig => exact .inl (hl.resolve_right (by simp [leafB]))
  | const => exact ⟨h.1, .inl (hl.resolve_right (by simp [leafB]))⟩
  | _ => exact h

theorem setZ_st (z : Signal) (T : Tr) : (setZ z T).st = { T.st with z := z } := by cases T <;> rfl

theorem setZ_leafB (z : Signal) (T : Tr) : leafB (setZ z T) = leafB T := by cases T <;> rfl

theorem aft_setZ (z : Signal) (T : Tr) : setZ (af0 c k z) (aft c k T) = aft c k (setZ z T) := by
  cases T <;> rfl

theorem rob_af (hk : 0 < k) (hs : k = 1 ∨ env.sem = .SPACE) : ∀ T : Tr,
    AfOk c k env.data.length env.params P' T →
    computeRob (afEnv c k P' env) (aft c k T) =
        (computeRob env T).map (fun r => (aft c k r.1, k * r.2)) ∧
      Post (fun r => Kept c k env.data.length env.params P' T r.1 ∧ r.1.st.z.samples ≠ [])
        (computeRob env T) := by
  intro T
  induction T with
  | sig s v m td =>
    intro h
    constructor
    · exact bind_af _ (sigRob_af hk s v m td h) fun r _ => rfl
    · refine post_bind (Q := fun r => r.1.samples ≠ []) ?_ fun r hr => post_ok ?_
      · intro r hr
        unfold sigRob at hr
        split at hr
        · obtain ⟨z, -, hr⟩ := bind_eq_ok.1 hr
          obtain ⟨p, hp, hr⟩ := bind_eq_ok.1 hr
          cases hr
          exact front_ne hp
        · split at hr
          · cases hr
          · split_ifs at hr
            obtain ⟨r1, -, hr⟩ := bind_eq_ok.1 hr
            obtain ⟨z, -, hr⟩ := bind_eq_ok.1 hr
            obtain ⟨p, hp, hr⟩ := bind_eq_ok.1 hr
            cases hr
            exact front_ne hp
      · exact ⟨⟨h.imp_right fun h => ⟨⟨h.1.1, h.1.2.1, .inr (.inl hr)⟩, .inl hr⟩, rfl, rfl, fun _ => hr⟩, hr⟩
  | const s p v td =>
    intro h
    constructor
    · simp only [aft, computeRob]
      have hc : constValue (afEnv c k P' env).params p (k * v) = k * constValue env.params p v :=
        constValue_af h.1
      rw [hc]
      exact bind_af _ (constRob_af hk s _ td h.2) fun r _ => rfl
    · refine post_bind constRob_ne fun r hr => post_ok ?_
      exact ⟨⟨⟨h.1, h.2.imp_right fun h => ⟨h.1, h.2.1, .inr (.inl hr)⟩⟩, rfl, rfl, fun _ => hr⟩, hr⟩
  | abs s x ih =>
    intro h
    obtain ⟨i1, i2⟩ := ih h
    constructor
    · refine bind_af _ i1 fun r _ => ?_
      simp only [aft_st]
      refine bind_af (af0 c k) ?_ fun z _ => front_fin (aft c k) (fun z => abs { s with z := z } r.1)
        (fun z => abs { afSt c k s with z := z } (aft c k r.1)) (fun z => rfl) z
      rw [show (afSt c k r.1.st).z.samples = afl c k r.1.st.z.samples from af0_samples _]
      exact absLoop_af hk env.ip _ s.z
    · refine post_bind i2 fun r hr => post_bind' fun z => post_front fun hz v => ?_
      exact ⟨⟨hr.1.1, rfl, rfl, fun _ => hz⟩, hz⟩
  | plus s l r ihl ihr =>
    intro h
    obtain ⟨i1, i2⟩ := ihl h.1
    obtain ⟨j1, j2⟩ := ihr h.2
    constructor
    · refine bind_af _ i1 fun l _ => bind_af _ j1 fun r _ => ?_
      simp only [aft_st]
      refine bind_af (af0 c k) ?_ fun z _ => front_fin (aft c k) (fun z => plus { s with z := z } l.1 r.1)
        (fun z => plus { afSt c k s with z := z } (aft c k l.1) (aft c k r.1)) (fun z => rfl) z
      rw [show (afSt c k r.1.st).z.samples = afl c k r.1.st.z.samples from af0_samples _,
        show (afSt c k l.1.st).z.samples = afl c k l.1.st.z.samples from af0_samples _]
      exact binLoop_af env.ip _ (fun a b => by ring) _ _ s.z
    · refine post_bind i2 fun l hl => post_bind j2 fun r hr => post_bind' fun z => post_front fun hz v => ?_
      exact ⟨⟨⟨hl.1.1, hr.1.1⟩, rfl, rfl, fun _ => hz⟩, hz⟩
  | minus s l r ihl ihr =>
    intro h
    obtain ⟨i1, i2⟩ := ihl h.1
    obtain ⟨j1, j2⟩ := ihr h.2
    constructor
    · refine bind_af _ i1 fun l _ => bind_af _ j1 fun r _ => ?_
      simp only [aft_st]
      refine bind_af (af0 c k) ?_ fun z _ => front_fin (aft c k) (fun z => minus { s with z := z } l.1 r.1)
        (fun z => minus { afSt c k s with z := z } (aft c k l.1) (aft c k r.1)) (fun z => rfl) z
      rw [show (afSt c k r.1.st).z.samples = afl c k r.1.st.z.samples from af0_samples _,
        show (afSt c k l.1.st).z.samples = afl c k l.1.st.z.samples from af0_samples _]
      exact binLoop_af env.ip _ (fun a b => by ring) _ _ s.z
    · refine post_bind i2 fun l hl => post_bind j2 fun r hr => post_bind' fun z => post_front fun hz v => ?_
      exact ⟨⟨⟨hl.1.1, hr.1.1⟩, rfl, rfl, fun _ => hz⟩, hz⟩
  | mult s l r ihl ihr =>
    intro h
    obtain ⟨i1, i2⟩ := ihl h.2.1
    obtain ⟨j1, j2⟩ := ihr h.2.2
    constructor
    · refine bind_af _ i1 fun l _ => bind_af _ j1 fun r _ => ?_
      simp only [aft_st]
      refine bind_af (af0 c k) ?_ fun z _ => front_fin (aft c k) (fun z => mult { s with z := z } l.1 r.1)
        (fun z => mult { afSt c k s with z := z } (aft c k l.1) (aft c k r.1)) (fun z => rfl) z
      rw [show (afSt c k r.1.st).z.samples = afl c k r.1.st.z.samples from af0_samples _,
        show (afSt c k l.1.st).z.samples = afl c k l.1.st.z.samples from af0_samples _]
      exact binLoop_af env.ip _ (fun a b => by rw [h.1]; ring) _ _ s.z
    · refine post_bind i2 fun l hl => post_bind j2 fun r hr => post_bind' fun z => post_front fun hz v => ?_
      exact ⟨⟨⟨h.1, hl.1.1, hr.1.1⟩, rfl, rfl, fun _ => hz⟩, hz⟩
  | atom s o l r ihl ihr =>
    intro h
    obtain ⟨i1, i2⟩ := ihl h.1
    obtain ⟨j1, j2⟩ := ihr h.2
    constructor
    · refine bind_af _ i1 fun l hl => bind_af _ j1 fun r hr => ?_
      simp only [aft_st]
      exact atomRob_af (aft c k) (fun z => atom { s with z := z } o l.1 r.1)
        (fun z => atom { afSt c k s with z := z } o (aft c k l.1) (aft c k r.1)) (fun z => rfl) hs o s.z _ _
        (i2 _ hl).2 (j2 _ hr).2
    · refine post_bind i2 fun l hl => post_bind j2 fun r hr => post_bind' fun z => post_front fun hz v => ?_
      exact ⟨⟨⟨hl.1.1, hr.1.1⟩, rfl, rfl, fun _ => hz⟩, hz⟩
  | not s x ih =>
    intro h
    obtain ⟨i1, i2⟩ := ih h.1
    constructor
    · refine bind_af _ i1 fun r hr => ?_
      simp only [aft_st]
      have e : (afSt c k r.1.st).z = afs c k r.1.st.z := af0_ne (i2 _ hr).2
      rw [e, not_af]
      exact front_fin' (aft c k) (fun z => not { s with z := z } r.1)
        (fun z => not { afSt c k s with z := z } (aft c k r.1)) (fun z => rfl) _
    · refine post_bind i2 fun r hr => post_front fun hz v => ?_
      exact ⟨⟨⟨hr.1.1, hr.1.2.1.trans h.2⟩, rfl, rfl, fun _ => hz⟩, hz⟩
  | and s l r ihl ihr =>
    intro h
    obtain ⟨i1, i2⟩ := ihl h.1
    obtain ⟨j1, j2⟩ := ihr h.2
    constructor
    · refine bind_af _ i1 fun l hl => bind_af _ j1 fun r hr => ?_
      simp only [aft_st]
      rw [show (afSt c k l.1.st).z = afs c k l.1.st.z from af0_ne (i2 _ hl).2,
        show (afSt c k r.1.st).z = afs c k r.1.st.z from af0_ne (j2 _ hr).2]
      exact bind_af _ (andRob_af hk _ _) fun z _ => front_fin' (aft c k) (fun z => and { s with z := z } l.1 r.1)
        (fun z => and { afSt c k s with z := z } (aft c k l.1) (aft c k r.1)) (fun z => rfl) z
    · refine post_bind i2 fun l hl => post_bind j2 fun r hr => post_bind' fun z => post_front fun hz v => ?_
      exact ⟨⟨⟨hl.1.1, hr.1.1⟩, rfl, rfl, fun _ => hz⟩, hz⟩
  | or s l r ihl ihr =>
    intro h
    obtain ⟨i1, i2⟩ := ihl h.1
    obtain ⟨j1, j2⟩ := ihr h.2
    constructor
    · refine bind_af _ i1 fun l hl => bind_af _ j1 fun r hr => ?_
      simp only [aft_st]
      rw [show (afSt c k l.1.st).z = afs c k l.1.st.z from af0_ne (i2 _ hl).2,
        show (afSt c k r.1.st).z = afs c k r.1.st.z from af0_ne (j2 _ hr).2]
      exact bind_af _ (orRob_af hk _ _) fun z _ => front_fin' (aft c k) (fun z => or { s with z := z } l.1 r.1)
        (fun z => or { afSt c k s with z := z } (aft c k l.1) (aft c k r.1)) (fun z => rfl) z
    · refine post_bind i2 fun l hl => post_bind j2 fun r hr => post_bind' fun z => post_front fun hz v => ?_
      exact ⟨⟨⟨hl.1.1, hr.1.1⟩, rfl, rfl, fun _ => hz⟩, hz⟩
  | implies s l r ihl ihr =>
    intro h
    obtain ⟨i1, i2⟩ := ihl h.1
    obtain ⟨j1, j2⟩ := ihr h.2
    constructor
    · refine bind_af _ i1 fun l hl => bind_af _ j1 fun r hr => ?_
      simp only [aft_st]
      rw [show (afSt c k l.1.st).z = afs c k l.1.st.z from af0_ne (i2 _ hl).2,
        show (afSt c k r.1.st).z = afs c k r.1.st.z from af0_ne (j2 _ hr).2]
      refine bind_af (afs c k) ?_ fun z _ => front_fin' (aft c k) (fun z => implies { s with z := z } l.1 r.1)
        (fun z => implies { afSt c k s with z := z } (aft c k l.1) (aft c k r.1)) (fun z => rfl) z
      unfold computeImpliesM
      rw [not_af]
      exact computeOrM_af hk _ _
    · refine post_bind i2 fun l hl => post_bind j2 fun r hr => post_bind' fun z => post_front fun hz v => ?_
      exact ⟨⟨⟨hl.1.1, hr.1.1⟩, rfl, rfl, fun _ => hz⟩, hz⟩
  | ev s I x ih =>
    intro h
    obtain ⟨h1, h2, h3⟩ := h
    obtain ⟨i1, i2⟩ := ih h1
    constructor
    · refine bind_af _ i1 fun r hr => ?_
      simp only [aft_st]
      rw [show (afSt c k r.1.st).z = afs c k r.1.st.z from af0_ne (i2 _ hr).2]
      rw [show ivA (afEnv c k P' env).params I = ivA env.params I from h2.1,
        show ivB (afEnv c k P' env).params I = ivB env.params I from h2.2]
      refine bind_af _ (evRob_af hk env.B s _ _ _ (i2 _ hr).2) fun z _ => ?_
      simp only [aft_setZ]
      exact front_fin (aft c k) (fun y => ev { s with z := y } I (setZ z.2 r.1))
        (fun y => ev { afSt c k s with z := y } I (aft c k (setZ z.2 r.1))) (fun z => rfl) z.1
    · refine post_bind i2 fun r hr => post_bind' fun z => post_front fun hz v => ?_
      refine ⟨⟨⟨afOk_setZ _ _ ?_ hr.1.1, h2, ?_⟩, rfl, rfl, fun _ => hz⟩, hz⟩
      · rw [hr.1.2.2.1]
        exact h3.imp_right fun h => h.1
      · rw [setZ_leafB, setZ_st, hr.1.2.2.1, hr.1.2.1]
        exact h3
  | alw s I x ih =>
    intro h
    obtain ⟨h1, h2, h3⟩ := h
    obtain ⟨i1, i2⟩ := ih h1
    constructor
    · refine bind_af _ i1 fun r hr => ?_
      simp only [aft_st]
      rw [show (afSt c k r.1.st).z = afs c k r.1.st.z from af0_ne (i2 _ hr).2]
      rw [show ivA (afEnv c k P' env).params I = ivA env.params I from h2.1,
        show ivB (afEnv c k P' env).params I = ivB env.params I from h2.2]
      refine bind_af _ (alwRob_af hk env.B s _ _ _ (i2 _ hr).2) fun z _ => ?_
      exact front_fin (aft c k) (fun y => alw { s with z := y } I r.1)
        (fun y => alw { afSt c k s with z := y } I (aft c k r.1)) (fun z => rfl) z
    · refine post_bind i2 fun r hr => post_bind' fun z => post_front fun hz v => ?_
      refine ⟨⟨⟨hr.1.1, h2, ?_⟩, rfl, rfl, fun _ => hz⟩, hz⟩
      rw [hr.1.2.2.1, hr.1.2.1]
      exact h3
  | untl s l I r ihl ihr =>
    intro h
    obtain ⟨rfl, h2, h3, h4⟩ := h
    obtain ⟨i1, i2⟩ := ihl h3
    obtain ⟨j1, j2⟩ := ihr h4
    constructor
    · refine bind_af _ i1 fun l hl => bind_af _ j1 fun r hr => ?_
      simp only [aft_st]
      rw [show (afSt 0 k l.1.st).z = afs 0 k l.1.st.z from af0_ne (i2 _ hl).2,
        show (afSt 0 k r.1.st).z = afs 0 k r.1.st.z from af0_ne (j2 _ hr).2]
      rw [show ivA (afEnv 0 k P' env).params I = ivA env.params I from h2.1,
        show ivB (afEnv 0 k P' env).params I = ivB env.params I from h2.2]
      exact bind_af _ (untilRob_af hk env.B s _ _ _ _) fun z _ => front_fin (aft 0 k)
        (fun z => untl { s with z := z } l.1 I r.1)
        (fun z => untl { afSt 0 k s with z := z } (aft 0 k l.1) I (aft 0 k r.1)) (fun z => rfl) z
    · refine post_bind i2 fun l hl => post_bind j2 fun r hr => post_bind' fun z => post_front fun hz v => ?_
      exact ⟨⟨⟨rfl, h2, hl.1.1, hr.1.1⟩, rfl, rfl, fun _ => hz⟩, hz⟩

/-! ## Bounds -/

/-- A signal of bounds that starts where its node does not end. -/
def BoundOk (c : ℚ) (s : ℚ) (z : Signal) : Prop := c = 0 ∨ z.samples ≠ [] ∧ s ≤ z.endTime

theorem boundOk_ne {s : ℚ} {z : Signal} (h : BoundOk c s z) : af0 c k z = afs c k z :=
  af0_eq (h.imp_right fun h => h.1)

theorem appendIfEmpty_af (ip : Interpol) (z : Signal) (t v : ℚ) :
    appendIfEmpty ip (af0 c k z) (t + c) (k * v) = (appendIfEmpty ip z t v).map (af0 c k) := by
  unfold appendIfEmpty
  rw [af0_samples]
  simp only [List.map_eq_nil_iff]
  split_ifs
  · exact appendSample0_af ip z t v
  · rfl

theorem appendIfEmpty_end {ip : Interpol} {z : Signal} {t v : ℚ} (h : z.samples = [] ∨ t ≤ z.endTime) :
    Post (fun y => y.samples ≠ [] ∧ t ≤ y.endTime) (appendIfEmpty ip z t v) := by
  unfold appendIfEmpty
  refine post_ite (fun _ y hy => append_end_le hy) fun h0 => post_ok ⟨h0, h.resolve_left h0⟩

theorem defaultLow_af (s : St) (hz : s.z.samples ≠ []) :
    defaultLow (afEnv c k P' env) (afSt c k s) = (defaultLow env s).map (af0 c k) := by
  unfold defaultLow
  have e1 : (afSt c k s).z.endTime = s.z.endTime + c := by
    rw [show (afSt c k s).z = afs c k s.z from af0_ne hz]
    rfl
  have e2 : (afSt c k s).start = s.start + c := rfl
  simp only [e1, e2, add_lt_add_iff_right]
  split_ifs
  · rw [show -(afEnv c k P' env).B = k * -env.B by simp [afEnv]]
    exact appendSample0_af env.ip s.zlow _ _
  · rfl

theorem defaultUp_af (s : St) (hz : s.z.samples ≠ []) :
    defaultUp (afEnv c k P' env) (afSt c k s) = (defaultUp env s).map (af0 c k) := by
  unfold defaultUp
  have e1 : (afSt c k s).z.endTime = s.z.endTime + c := by
    rw [show (afSt c k s).z = afs c k s.z from af0_ne hz]
    rfl
  have e2 : (afSt c k s).start = s.start + c := rfl
  simp only [e1, e2, add_lt_add_iff_right]
  split_ifs
  · rw [show -(afEnv c k P' env).B = k * -env.B by simp [afEnv]]
    exact appendSample0_af env.ip s.zup _ _
  · rfl

theorem defaultLow_end {s : St} (hz : s.z.samples ≠ []) :
    Post (fun y => y.samples ≠ [] ∧ s.start ≤ y.endTime) (defaultLow env s) := by
  unfold defaultLow
  exact post_ite (fun _ y hy => append_end_le hy) fun h => post_ok ⟨hz, not_lt.1 h⟩

theorem defaultUp_end {s : St} (hz : s.z.samples ≠ []) :
    Post (fun y => y.samples ≠ [] ∧ s.start ≤ y.endTime) (defaultUp env s) := by
  unfold defaultUp
  exact post_ite (fun _ y hy => append_end_le hy) fun h => post_ok ⟨hz, not_lt.1 h⟩

/-- The end of the bounds of the Boolean operators. -/
theorem tail_af (hk : 0 < k) (z : Signal) (s t v : ℚ) (ip : Interpol) :
    (do let z ← (afs c k z).resize (s + c) (t + c) (k * v); appendIfEmpty ip z (s + c) (k * v)) =
      (do let z ← z.resize s t v; appendIfEmpty ip z s v : M Signal).map (af0 c k) :=
  bind_af _ (resize_afs hk z s t v) fun z _ => appendIfEmpty_af ip z s v

theorem tail_end {z : Signal} {s t v : ℚ} {ip : Interpol} :
    Post (fun y => y.samples ≠ [] ∧ s ≤ y.endTime)
      (do let z ← z.resize s t v; appendIfEmpty ip z s v : M Signal) :=
  post_bind (Q := fun z => z.samples = [] ∨ s ≤ z.endTime) (fun _ h => resize_end_le h)
    fun _ h => appendIfEmpty_end h

theorem negB : -(afEnv c k P' env).B = k * -env.B := by simp [afEnv]

theorem andLow_af (hk : 0 < k) (s : St) (x y : Signal) :
    andLow (afEnv c k P' env) (afSt c k s) (afs c k x) (afs c k y) = (andLow env s x y).map (af0 c k) := by
  unfold andLow
  refine bind_af _ (computeAndM_af hk x y) fun z _ => ?_
  rw [negB, show min (afs c k x).endTime (afs c k y).endTime = min x.endTime y.endTime + c from min_af _ _]
  exact tail_af hk z s.start _ _ env.ip

theorem andUp_af (hk : 0 < k) (s : St) (x y : Signal) :
    andUp (afEnv c k P' env) (afSt c k s) (afs c k x) (afs c k y) = (andUp env s x y).map (af0 c k) := by
  unfold andUp
  refine bind_af _ (computeAndM_af hk x y) fun z _ => ?_
  exact tail_af hk z s.start _ _ env.ip

theorem orLow_af (hk : 0 < k) (s : St) (x y : Signal) :
    orLow (afEnv c k P' env) (afSt c k s) (afs c k x) (afs c k y) = (orLow env s x y).map (af0 c k) := by
  unfold orLow
  refine bind_af _ (computeOrM_af hk x y) fun z _ => ?_
  rw [negB]
  exact tail_af hk z s.start _ _ env.ip

theorem orUp_af (hk : 0 < k) (s : St) (x y : Signal) :
    orUp (afEnv c k P' env) (afSt c k s) (afs c k x) (afs c k y) = (orUp env s x y).map (af0 c k) := by
  unfold orUp
  refine bind_af _ (computeOrM_af hk x y) fun z _ => ?_
  rw [show min (afs c k x).endTime (afs c k y).endTime = min x.endTime y.endTime + c from min_af _ _]
  exact tail_af hk z s.start _ _ env.ip

theorem impliesLow_af (hk : 0 < k) (s : St) (x y : Signal) :
    impliesLow (afEnv c k P' env) (afSt c k s) (afs c k x) (afs c k y) = (impliesLow env s x y).map (af0 c k) := by
  unfold impliesLow
  rw [not_af]
  refine bind_af _ (computeOrM_af hk _ y) fun z _ => ?_
  rw [negB]
  exact tail_af hk z s.start _ _ env.ip

theorem impliesUp_af (hk : 0 < k) (s : St) (x y : Signal) :
    impliesUp (afEnv c k P' env) (afSt c k s) (afs c k x) (afs c k y) = (impliesUp env s x y).map (af0 c k) := by
  unfold impliesUp
  simp only [not_af]
  refine bind_af _ (computeOrM_af hk _ y) fun z _ => ?_
  rw [show min (afs c k (computeNot x)).endTime (afs c k y).endTime =
    min (computeNot x).endTime y.endTime + c from min_af _ _]
  exact tail_af hk z s.start _ _ env.ip

theorem timedEv_af0 (hk : 0 < k) (B : ℚ) (old x : Signal) (hx : c = 0 ∨ x.samples ≠ []) (a b : ℚ) :
    computeTimedEventually (k * B) (af0 c k old) (afs c k x) a b =
      (computeTimedEventually B old x a b).map (afs c k) := by
  by_cases h : x.samples = []
  · obtain rfl := hx.resolve_right fun h' => h' h
    have h' : (afs 0 k x).samples = [] := by simp [afs, h]
    unfold computeTimedEventually
    rw [if_pos h, if_pos h', af0_eq (.inl rfl)]
    simp [Except.map, afs]
  · exact computeTimedEventually_af hk B old _ x h a b

theorem timedAlw_af0 (hk : 0 < k) (B : ℚ) (old x : Signal) (hx : c = 0 ∨ x.samples ≠ []) (a b : ℚ) :
    computeTimedGlobally (k * B) (af0 c k old) (afs c k x) a b =
      (computeTimedGlobally B old x a b).map (afs c k) := by
  by_cases h : x.samples = []
  · obtain rfl := hx.resolve_right fun h' => h' h
    have h' : (afs 0 k x).samples = [] := by simp [afs, h]
    unfold computeTimedGlobally
    rw [if_pos h, if_pos h', af0_eq (.inl rfl)]
    simp [Except.map, afs]
  · exact computeTimedGlobally_af hk B old _ x h a b

theorem early_af {a t : ℚ} {x : Signal} (h : c = 0 ∨ 0 ≤ t ∧ 0 ≤ t + c ∧ t + a ≤ x.endTime) :
    (afs c k x).endTime < a ↔ x.endTime < a := by
  have e : (afs c k x).endTime = x.endTime + c := rfl
  rw [e]
  rcases h with rfl | ⟨h1, h2, h3⟩
  · rw [add_zero]
  · constructor <;> intro h <;> linarith

theorem front_pair (z : Signal) :
    (do let p ← (af0 c k z).front; .ok (af0 c k z, p.value) : M (Signal × ℚ)) =
      (do let p ← z.front; .ok (z, p.value) : M (Signal × ℚ)).map fun r => (af0 c k r.1, k * r.2) :=
  front_fin (af0 c k) id id (fun _ => rfl) z

theorem evLow_af (hk : 0 < k) (s : St) (a b : ℚ) (x : Signal) (hx : c = 0 ∨ x.samples ≠ [])
    (h : c = 0 ∨ 0 ≤ s.start ∧ 0 ≤ s.start + c ∧ s.start + a ≤ x.endTime) :
    evLow (afEnv c k P' env) (afSt c k s) a b (afs c k x) =
      (evLow env s a b x).map fun r => (af0 c k r.1, k * r.2) := by
  unfold evLow
  simp only [early_af h, negB]
  split_ifs
  · exact bind_af _ (appendSample0_af env.ip s.zlow _ _) fun z _ => rfl
  · refine bind_af _ (timedEv_af0 hk env.B s.zlow x hx a b) fun z _ => ?_
    have h2 := resize_afs (c := c) hk z s.start (max s.start (min z.endTime s.stop)) 0
    rw [mul_zero, ← max_af, ← min_af] at h2
    exact bind_af _ h2 fun z' _ => bind_af _ (appendIfEmpty_af env.ip z' _ _) fun y _ => front_pair y

theorem alwUp_af (hk : 0 < k) (s : St) (a b : ℚ) (x : Signal) (hx : c = 0 ∨ x.samples ≠ [])
    (h : c = 0 ∨ 0 ≤ s.start ∧ 0 ≤ s.start + c ∧ s.start + a ≤ x.endTime) :
    alwUp (afEnv c k P' env) (afSt c k s) a b (afs c k x) =
      (alwUp env s a b x).map fun r => (af0 c k r.1, k * r.2) := by
  unfold alwUp
  simp only [early_af h]
  split_ifs
  · exact bind_af _ (appendSample0_af env.ip s.zup _ _) fun z _ => rfl
  · refine bind_af _ (timedAlw_af0 hk env.B s.zup x hx a b) fun z _ => ?_
    have h2 := resize_afs (c := c) hk z s.start (max s.start (min z.endTime s.stop)) 0
    rw [mul_zero, ← max_af, ← min_af] at h2
    exact bind_af _ h2 fun z' _ => bind_af _ (appendIfEmpty_af env.ip z' _ _) fun y _ => front_pair y

theorem evUp_af (hk : 0 < k) (s : St) (a b : ℚ) (x : Signal) (hx : c = 0 ∨ x.samples ≠ [])
    (h : c = 0 ∨ 0 ≤ s.start ∧ 0 ≤ s.start + c ∧ s.start + a ≤ x.endTime) :
    evUp (afEnv c k P' env) (afSt c k s) a b (afs c k x) =
      (evUp env s a b x).map fun r => (af0 c k r.1, k * r.2) := by
  unfold evUp
  simp only [early_af h]
  split_ifs
  · exact bind_af _ (appendSample0_af env.ip s.zup _ _) fun z _ => rfl
  · refine bind_af _ (timedEv_af0 hk env.B s.zup x hx a b) fun z _ => ?_
    have h2 := resize_afs (c := c) hk z s.start (min (z.endTime - b + a) s.stop) 0
    rw [mul_zero, ← min_af, show z.endTime - b + a + c = z.endTime + c - b + a by ring] at h2
    exact bind_af _ h2 fun z' _ => bind_af _ (appendIfEmpty_af env.ip z' _ _) fun y _ => front_pair y

theorem alwLow_af (hk : 0 < k) (s : St) (a b : ℚ) (x : Signal) (hx : c = 0 ∨ x.samples ≠ [])
    (h : c = 0 ∨ 0 ≤ s.start ∧ 0 ≤ s.start + c ∧ s.start + a ≤ x.endTime) :
    alwLow (afEnv c k P' env) (afSt c k s) a b (afs c k x) =
      (alwLow env s a b x).map fun r => (af0 c k r.1, k * r.2) := by
  unfold alwLow
  simp only [early_af h, negB]
  split_ifs
  · exact bind_af _ (appendSample0_af env.ip s.zlow _ _) fun z _ => rfl
  · refine bind_af _ (timedAlw_af0 hk env.B s.zlow x hx a b) fun z _ => ?_
    have h2 := resize_afs (c := c) hk z s.start (min (z.endTime - b + a) s.stop) 0
    rw [mul_zero, ← min_af, show z.endTime - b + a + c = z.endTime + c - b + a by ring] at h2
    exact bind_af _ h2 fun z' _ => bind_af _ (appendIfEmpty_af env.ip z' _ _) fun y _ => front_pair y

theorem window_end {f : M Signal} {g : Signal → ℚ} {s v : ℚ} {ip : Interpol} :
    Post (fun r => r.1.samples ≠ [] ∧ s ≤ r.1.endTime)
      (do let z ← f; let z ← z.resize s (g z) 0; let z ← appendIfEmpty ip z s v; let p ← z.front;
          .ok (z, p.value) : M (Signal × ℚ)) :=
  post_bind' fun _ => post_bind (Q := fun z => z.samples = [] ∨ s ≤ z.endTime) (fun _ h => resize_end_le h)
    fun _ h => post_bind (appendIfEmpty_end h) fun _ h => post_bind' fun _ => post_ok h

theorem evLow_end {s : St} {a b : ℚ} {x : Signal} :
    Post (fun r => r.1.samples ≠ [] ∧ s.start ≤ r.1.endTime) (evLow env s a b x) := by
  unfold evLow
  exact post_ite (fun _ => post_bind (fun z hz => append_end_le hz) fun z hz => post_ok hz) fun _ => window_end

theorem evUp_end {s : St} {a b : ℚ} {x : Signal} :
    Post (fun r => r.1.samples ≠ [] ∧ s.start ≤ r.1.endTime) (evUp env s a b x) := by
  unfold evUp
  exact post_ite (fun _ => post_bind (fun z hz => append_end_le hz) fun z hz => post_ok hz) fun _ => window_end

theorem alwLow_end {s : St} {a b : ℚ} {x : Signal} :
    Post (fun r => r.1.samples ≠ [] ∧ s.start ≤ r.1.endTime) (alwLow env s a b x) := by
  unfold alwLow
  exact post_ite (fun _ => post_bind (fun z hz => append_end_le hz) fun z hz => post_ok hz) fun _ => window_end

theorem alwUp_end {s : St} {a b : ℚ} {x : Signal} :
    Post (fun r => r.1.samples ≠ [] ∧ s.start ≤ r.1.endTime) (alwUp env s a b x) := by
  unfold alwUp
  exact post_ite (fun _ => post_bind (fun z hz => append_end_le hz) fun z hz => post_ok hz) fun _ => window_end

theorem untilLow_af (hk : 0 < k) (s : St) (a b : ℚ) (x y : Signal) :
    untilLow (afEnv 0 k P' env) (afSt 0 k s) a b (afs 0 k x) (afs 0 k y) =
      (untilLow env s a b x y).map fun r => (af0 0 k r.1, k * r.2) := by
  unfold untilLow
  rw [show (afSt 0 k s).zlow = afs 0 k s.zlow from af0_eq (.inl rfl), negB]
  refine bind_af _ (computeTimedUntil_af hk env.B s.zlow x y a b) fun z _ => ?_
  have h2 := resize_afs (c := 0) hk z s.start (max s.start (min z.endTime s.stop)) 0
  rw [mul_zero, ← max_af, ← min_af] at h2
  refine bind_af _ h2 fun z' _ => ?_
  rw [af0_samples]
  cases z'.samples with
  | nil => rfl
  | cons p l => simp [Except.map]

theorem untilUp_af (hk : 0 < k) (s : St) (a b : ℚ) (x y : Signal) :
    untilUp (afEnv 0 k P' env) (afSt 0 k s) a b (afs 0 k x) (afs 0 k y) =
      (untilUp env s a b x y).map fun r => (af0 0 k r.1, k * r.2) := by
  unfold untilUp
  rw [show (afSt 0 k s).zup = afs 0 k s.zup from af0_eq (.inl rfl)]
  refine bind_af _ (computeTimedUntil_af hk env.B s.zup x y a b) fun z _ => ?_
  have h2 := resize_afs (c := 0) hk z s.start (max s.start (min (z.endTime - b) s.stop)) 0
  rw [mul_zero, ← max_af, ← min_af, show z.endTime - b + 0 = z.endTime + 0 - b by ring] at h2
  refine bind_af _ h2 fun z' _ => ?_
  rw [af0_samples]
  cases z'.samples with
  | nil => rfl
  | cons p l => simp [Except.map]

/-- `compute_lower_rob` of the classes that do not override it. -/
def stepLow (env : Env) (T : Tr) : M (Tr × ℚ) := do
  let (T, _) ← computeRob env T
  let z ← defaultLow env T.st
  let p ← z.front
  .ok (T.setSt { T.st with zlow := z }, p.value)

/-- `compute_upper_rob` of the classes that do not override it. -/
def stepUp (env : Env) (T : Tr) : M (Tr × ℚ) := do
  let (T, _) ← computeRob env T
  let z ← defaultUp env T.st
  let p ← z.front
  .ok (T.setSt { T.st with zup := z }, p.value)

theorem afOk_setSt {n : ℕ} {P P' : Assoc ℚ} (s : St) (T : Tr) (h1 : s.start = T.st.start) (h2 : s.stop = T.st.stop)
    (h3 : s.z = T.st.z) (h : AfOk c k n P P' T) : AfOk c k n P P' (T.setSt s) := by
  cases T with
  | sig st v m td =>
    refine h.imp_right fun h => ?_
    unfold AfLeaf at h ⊢
    rw [h2, h3]
    exact h
  | const st p v td =>
    refine ⟨h.1, h.2.imp_right fun h => ?_⟩
    unfold AfLeaf at h ⊢
    rw [h2, h3]
    exact h
  | not st x => exact ⟨h.1, h.2.trans h1.symm⟩
  | ev st I x =>
    refine ⟨h.1, h.2.1, h.2.2.imp_right fun h => ?_⟩
    rw [h1]
    exact h
  | alw st I x =>
    refine ⟨h.1, h.2.1, h.2.2.imp_right fun h => ?_⟩
    rw [h1]
    exact h
  | _ => exact h

theorem setSt_st (s : St) (T : Tr) : (T.setSt s).st = s := by cases T <;> rfl
theorem setSt_leafB (s : St) (T : Tr) : leafB (T.setSt s) = leafB T := by cases T <;> rfl

/-- What the lower bounds of a tree do under the map. -/
def LowAf (c k : ℚ) (P' : Assoc ℚ) (env : Env) (T : Tr) : Prop :=
  computeLow (afEnv c k P' env) (aft c k T) = (computeLow env T).map (fun r => (aft c k r.1, k * r.2)) ∧
    Post (fun r => Kept c k env.data.length env.params P' T r.1 ∧ BoundOk c r.1.st.start r.1.st.zlow)
      (computeLow env T)

/-- What the upper bounds of a tree do under the map. -/
def UpAf (c k : ℚ) (P' : Assoc ℚ) (env : Env) (T : Tr) : Prop :=
  computeUp (afEnv c k P' env) (aft c k T) = (computeUp env T).map (fun r => (aft c k r.1, k * r.2)) ∧
    Post (fun r => Kept c k env.data.length env.params P' T r.1 ∧ BoundOk c r.1.st.start r.1.st.zup)
      (computeUp env T)

theorem stepLow_af (hk : 0 < k) (hs : k = 1 ∨ env.sem = .SPACE) {T : Tr}
    (h : AfOk c k env.data.length env.params P' T) (e1 : computeLow env T = stepLow env T)
    (e2 : computeLow (afEnv c k P' env) (aft c k T) = stepLow (afEnv c k P' env) (aft c k T)) :
    LowAf c k P' env T := by
  obtain ⟨i1, i2⟩ := rob_af hk hs T h
  unfold LowAf
  rw [e1, e2]
  constructor
  · refine bind_af _ i1 fun r hr => ?_
    simp only [aft_st]
    refine bind_af _ (defaultLow_af r.1.st (i2 _ hr).2) fun z _ => ?_
    exact front_fin (aft c k) (fun z => r.1.setSt { r.1.st with zlow := z })
      (fun z => (aft c k r.1).setSt { afSt c k r.1.st with zlow := z })
      (fun z => aft_setSt { r.1.st with zlow := z } r.1) z
  · refine post_bind i2 fun r hr => post_bind (defaultLow_end hr.2) fun z hz => post_bind' fun p => post_ok ?_
    refine ⟨⟨afOk_setSt _ _ rfl rfl rfl hr.1.1, ?_, ?_, ?_⟩, ?_⟩
    · rw [setSt_st]
      exact hr.1.2.1
    · rw [setSt_leafB]
      exact hr.1.2.2.1
    · rw [setSt_st]
      exact fun _ => hr.2
    · rw [setSt_st]
      exact .inr hz

theorem stepUp_af (hk : 0 < k) (hs : k = 1 ∨ env.sem = .SPACE) {T : Tr}
    (h : AfOk c k env.data.length env.params P' T) (e1 : computeUp env T = stepUp env T)
    (e2 : computeUp (afEnv c k P' env) (aft c k T) = stepUp (afEnv c k P' env) (aft c k T)) :
    UpAf c k P' env T := by
  obtain ⟨i1, i2⟩ := rob_af hk hs T h
  unfold UpAf
  rw [e1, e2]
  constructor
  · refine bind_af _ i1 fun r hr => ?_
    simp only [aft_st]
    refine bind_af _ (defaultUp_af r.1.st (i2 _ hr).2) fun z _ => ?_
    exact front_fin (aft c k) (fun z => r.1.setSt { r.1.st with zup := z })
      (fun z => (aft c k r.1).setSt { afSt c k r.1.st with zup := z })
      (fun z => aft_setSt { r.1.st with zup := z } r.1) z
  · refine post_bind i2 fun r hr => post_bind (defaultUp_end hr.2) fun z hz => post_bind' fun p => post_ok ?_
    refine ⟨⟨afOk_setSt _ _ rfl rfl rfl hr.1.1, ?_, ?_, ?_⟩, ?_⟩
    · rw [setSt_st]
      exact hr.1.2.1
    · rw [setSt_leafB]
      exact hr.1.2.2.1
    · rw [setSt_st]
      exact fun _ => hr.2
    · rw [setSt_st]
      exact .inr hz

theorem low_up_af (hk : 0 < k) (hs : k = 1 ∨ env.sem = .SPACE) : ∀ T : Tr,
    AfOk c k env.data.length env.params P' T → LowAf c k P' env T ∧ UpAf c k P' env T := by
  intro T
  induction T with
  | sig | const | abs | plus | minus | mult | atom =>
    intro h
    exact ⟨stepLow_af hk hs h (by simp only [computeLow, stepLow]) (by simp only [aft, computeLow, stepLow]),
      stepUp_af hk hs h (by simp only [computeUp, stepUp]) (by simp only [aft, computeUp, stepUp])⟩
  | and s l r ihl ihr =>
    intro h
    obtain ⟨⟨l1, l2⟩, l3, l4⟩ := ihl h.1
    obtain ⟨⟨r1, r2⟩, r3, r4⟩ := ihr h.2
    constructor
    · constructor
      · simp only [aft, computeLow]
        refine bind_af _ l1 fun l hl => bind_af _ r1 fun r hr => ?_
        simp only [aft_st]
        rw [show (afSt c k l.1.st).zlow = afs c k l.1.st.zlow from boundOk_ne (l2 _ hl).2,
          show (afSt c k r.1.st).zlow = afs c k r.1.st.zlow from boundOk_ne (r2 _ hr).2]
        exact bind_af _ (andLow_af hk s _ _) fun z _ => front_fin (aft c k)
          (fun z => and { s with zlow := z } l.1 r.1)
          (fun z => and { afSt c k s with zlow := z } (aft c k l.1) (aft c k r.1)) (fun z => rfl) z
      · simp only [computeLow]
        refine post_bind l2 fun l hl => post_bind r2 fun r hr =>
          post_bind (Q := fun z => z.samples ≠ [] ∧ s.start ≤ z.endTime) ?_ fun z hz => post_bind' fun p => post_ok ?_
        · unfold andLow
          exact post_bind' fun z => tail_end
        · exact ⟨⟨⟨hl.1.1, hr.1.1⟩, rfl, rfl, id⟩, .inr hz⟩
    · constructor
      · simp only [aft, computeUp]
        refine bind_af _ l3 fun l hl => bind_af _ r3 fun r hr => ?_
        simp only [aft_st]
        rw [show (afSt c k l.1.st).zup = afs c k l.1.st.zup from boundOk_ne (l4 _ hl).2,
          show (afSt c k r.1.st).zup = afs c k r.1.st.zup from boundOk_ne (r4 _ hr).2]
        exact bind_af _ (andUp_af hk s _ _) fun z _ => front_fin (aft c k)
          (fun z => and { s with zup := z } l.1 r.1)
          (fun z => and { afSt c k s with zup := z } (aft c k l.1) (aft c k r.1)) (fun z => rfl) z
      · simp only [computeUp]
        refine post_bind l4 fun l hl => post_bind r4 fun r hr =>
          post_bind (Q := fun z => z.samples ≠ [] ∧ s.start ≤ z.endTime) ?_ fun z hz => post_bind' fun p => post_ok ?_
        · unfold andUp
          exact post_bind' fun z => tail_end
        · exact ⟨⟨⟨hl.1.1, hr.1.1⟩, rfl, rfl, id⟩, .inr hz⟩
  | or s l r ihl ihr =>
    intro h
    obtain ⟨⟨l1, l2⟩, l3, l4⟩ := ihl h.1
    obtain ⟨⟨r1, r2⟩, r3, r4⟩ := ihr h.2
    constructor
    · constructor
      · simp only [aft, computeLow]
        refine bind_af _ l1 fun l hl => bind_af _ r1 fun r hr => ?_
        simp only [aft_st]
        rw [show (afSt c k l.1.st).zlow = afs c k l.1.st.zlow from boundOk_ne (l2 _ hl).2,
          show (afSt c k r.1.st).zlow = afs c k r.1.st.zlow from boundOk_ne (r2 _ hr).2]
        exact bind_af _ (orLow_af hk s _ _) fun z _ => front_fin (aft c k)
          (fun z => or { s with zlow := z } l.1 r.1)
          (fun z => or { afSt c k s with zlow := z } (aft c k l.1) (aft c k r.1)) (fun z => rfl) z
      · simp only [computeLow]
        refine post_bind l2 fun l hl => post_bind r2 fun r hr =>
          post_bind (Q := fun z => z.samples ≠ [] ∧ s.start ≤ z.endTime) ?_ fun z hz => post_bind' fun p => post_ok ?_
        · unfold orLow
          exact post_bind' fun z => tail_end
        · exact ⟨⟨⟨hl.1.1, hr.1.1⟩, rfl, rfl, id⟩, .inr hz⟩
    · constructor
      · simp only [aft, computeUp]
        refine bind_af _ l3 fun l hl => bind_af _ r3 fun r hr => ?_
        simp only [aft_st]
        rw [show (afSt c k l.1.st).zup = afs c k l.1.st.zup from boundOk_ne (l4 _ hl).2,
          show (afSt c k r.1.st).zup = afs c k r.1.st.zup from boundOk_ne (r4 _ hr).2]
        exact bind_af _ (orUp_af hk s _ _) fun z _ => front_fin (aft c k)
          (fun z => or { s with zup := z } l.1 r.1)
          (fun z => or { afSt c k s with zup := z } (aft c k l.1) (aft c k r.1)) (fun z => rfl) z
      · simp only [computeUp]
        refine post_bind l4 fun l hl => post_bind r4 fun r hr =>
          post_bind (Q := fun z => z.samples ≠ [] ∧ s.start ≤ z.endTime) ?_ fun z hz => post_bind' fun p => post_ok ?_
        · unfold orUp
          exact post_bind' fun z => tail_end
        · exact ⟨⟨⟨hl.1.1, hr.1.1⟩, rfl, rfl, id⟩, .inr hz⟩
  | implies s l r ihl ihr =>
    intro h
    obtain ⟨⟨l1, l2⟩, l3, l4⟩ := ihl h.1
    obtain ⟨⟨r1, r2⟩, r3, r4⟩ := ihr h.2
    constructor
    · constructor
      · simp only [aft, computeLow]
        refine bind_af _ l3 fun l hl => bind_af _ r1 fun r hr => ?_
        simp only [aft_st]
        rw [show (afSt c k l.1.st).zup = afs c k l.1.st.zup from boundOk_ne (l4 _ hl).2,
          show (afSt c k r.1.st).zlow = afs c k r.1.st.zlow from boundOk_ne (r2 _ hr).2]
        exact bind_af _ (impliesLow_af hk s _ _) fun z _ => front_fin (aft c k)
          (fun z => implies { s with zlow := z } l.1 r.1)
          (fun z => implies { afSt c k s with zlow := z } (aft c k l.1) (aft c k r.1)) (fun z => rfl) z
      · simp only [computeLow]
        refine post_bind l4 fun l hl => post_bind r2 fun r hr =>
          post_bind (Q := fun z => z.samples ≠ [] ∧ s.start ≤ z.endTime) ?_ fun z hz => post_bind' fun p => post_ok ?_
        · unfold impliesLow
          exact post_bind' fun z => tail_end
        · exact ⟨⟨⟨hl.1.1, hr.1.1⟩, rfl, rfl, id⟩, .inr hz⟩
    · constructor
      · simp only [aft, computeUp]
        refine bind_af _ l1 fun l hl => bind_af _ r3 fun r hr => ?_
        simp only [aft_st]
        rw [show (afSt c k l.1.st).zlow = afs c k l.1.st.zlow from boundOk_ne (l2 _ hl).2,
          show (afSt c k r.1.st).zup = afs c k r.1.st.zup from boundOk_ne (r4 _ hr).2]
        exact bind_af _ (impliesUp_af hk s _ _) fun z _ => front_fin (aft c k)
          (fun z => implies { s with zup := z } l.1 r.1)
          (fun z => implies { afSt c k s with zup := z } (aft c k l.1) (aft c k r.1)) (fun z => rfl) z
      · simp only [computeUp]
        refine post_bind l2 fun l hl => post_bind r4 fun r hr =>
          post_bind (Q := fun z => z.samples ≠ [] ∧ s.start ≤ z.endTime) ?_ fun z hz => post_bind' fun p => post_ok ?_
        · unfold impliesUp
          exact post_bind' fun z => tail_end
        · exact ⟨⟨⟨hl.1.1, hr.1.1⟩, rfl, rfl, id⟩, .inr hz⟩
  | not s x ih =>
    intro h
    obtain ⟨⟨l1, l2⟩, l3, l4⟩ := ih h.1
    constructor
    · constructor
      · simp only [aft, computeLow]
        refine bind_af _ l3 fun r hr => ?_
        simp only [aft_st]
        have hb := (l4 _ hr).2
        rw [show (afSt c k r.1.st).zup = afs c k r.1.st.zup from boundOk_ne hb]
        have e : (afs c k r.1.st.zup).samples = [] ↔ r.1.st.zup.samples = [] := by simp [afs]
        simp only [e, not_af, negB]
        split_ifs
        · exact bind_af _ (appendSample0_af env.ip s.zlow _ _) fun z _ => rfl
        · exact front_fin' (aft c k) (fun z => not { s with zlow := z } r.1)
            (fun z => not { afSt c k s with zlow := z } (aft c k r.1)) (fun z => rfl) _
      · simp only [computeLow]
        refine post_bind l4 fun r hr => post_ite (fun _ => ?_) fun h0 => ?_
        · refine post_bind (Q := fun z => z.samples ≠ [] ∧ s.start ≤ z.endTime)
            (fun z hz => append_end_le hz) fun z hz => post_ok ?_
          exact ⟨⟨⟨hr.1.1, hr.1.2.1.trans h.2⟩, rfl, rfl, id⟩, .inr hz⟩
        · refine post_bind' fun p => post_ok ⟨⟨⟨hr.1.1, hr.1.2.1.trans h.2⟩, rfl, rfl, id⟩, ?_⟩
          refine hr.2.imp_right fun hb => ⟨by simpa [Tr.st, computeNot_samples] using h0, ?_⟩
          have := hb.2
          rw [hr.1.2.1, h.2] at this
          exact this
    · constructor
      · simp only [aft, computeUp]
        refine bind_af _ l1 fun r hr => ?_
        simp only [aft_st]
        have hb := (l2 _ hr).2
        rw [show (afSt c k r.1.st).zlow = afs c k r.1.st.zlow from boundOk_ne hb]
        have e : (afs c k r.1.st.zlow).samples = [] ↔ r.1.st.zlow.samples = [] := by simp [afs]
        simp only [e, not_af]
        split_ifs
        · exact bind_af _ (appendSample0_af env.ip s.zup _ _) fun z _ => rfl
        · exact front_fin' (aft c k) (fun z => not { s with zup := z } r.1)
            (fun z => not { afSt c k s with zup := z } (aft c k r.1)) (fun z => rfl) _
      · simp only [computeUp]
        refine post_bind l2 fun r hr => post_ite (fun _ => ?_) fun h0 => ?_
        · refine post_bind (Q := fun z => z.samples ≠ [] ∧ s.start ≤ z.endTime)
            (fun z hz => append_end_le hz) fun z hz => post_ok ?_
          exact ⟨⟨⟨hr.1.1, hr.1.2.1.trans h.2⟩, rfl, rfl, id⟩, .inr hz⟩
        · refine post_bind' fun p => post_ok ⟨⟨⟨hr.1.1, hr.1.2.1.trans h.2⟩, rfl, rfl, id⟩, ?_⟩
          refine hr.2.imp_right fun hb => ⟨by simpa [Tr.st, computeNot_samples] using h0, ?_⟩
          have := hb.2
          rw [hr.1.2.1, h.2] at this
          exact this
  | ev s I x ih =>
    intro h
    obtain ⟨h1, h2, h3⟩ := h
    obtain ⟨⟨l1, l2⟩, l3, l4⟩ := ih h1
    constructor
    · constructor
      · simp only [aft, computeLow]
        refine bind_af _ l1 fun r hr => ?_
        simp only [aft_st]
        have hb := (l2 _ hr).2
        rw [show (afSt c k r.1.st).zlow = afs c k r.1.st.zlow from boundOk_ne hb,
          show ivA (afEnv c k P' env).params I = ivA env.params I from h2.1,
          show ivB (afEnv c k P' env).params I = ivB env.params I from h2.2]
        refine bind_af _ (evLow_af hk s _ _ _ (hb.imp_right fun h => h.1) ?_) fun z _ => rfl
        rcases h3 with h3 | h3
        · exact .inl h3
        · rcases hb with hb | hb
          · exact .inl hb
          · refine .inr ⟨h3.2.1, h3.2.2.1, ?_⟩
            rw [← h3.2.2.2, ← (l2 _ hr).1.2.1]
            exact hb.2
      · simp only [computeLow]
        refine post_bind l2 fun r hr => post_bind evLow_end fun z hz => post_ok ?_
        refine ⟨⟨⟨hr.1.1, h2, ?_⟩, rfl, rfl, id⟩, .inr hz⟩
        rw [hr.1.2.2.1, hr.1.2.1]
        exact h3
    · constructor
      · simp only [aft, computeUp]
        refine bind_af _ l3 fun r hr => ?_
        simp only [aft_st]
        have hb := (l4 _ hr).2
        rw [show (afSt c k r.1.st).zup = afs c k r.1.st.zup from boundOk_ne hb,
          show ivA (afEnv c k P' env).params I = ivA env.params I from h2.1,
          show ivB (afEnv c k P' env).params I = ivB env.params I from h2.2]
        refine bind_af _ (evUp_af hk s _ _ _ (hb.imp_right fun h => h.1) ?_) fun z _ => rfl
        rcases h3 with h3 | h3
        · exact .inl h3
        · rcases hb with hb | hb
          · exact .inl hb
          · refine .inr ⟨h3.2.1, h3.2.2.1, ?_⟩
            rw [← h3.2.2.2, ← (l4 _ hr).1.2.1]
            exact hb.2
      · simp only [computeUp]
        refine post_bind l4 fun r hr => post_bind evUp_end fun z hz => post_ok ?_
        refine ⟨⟨⟨hr.1.1, h2, ?_⟩, rfl, rfl, id⟩, .inr hz⟩
        rw [hr.1.2.2.1, hr.1.2.1]
        exact h3
  | alw s I x ih =>
    intro h
    obtain ⟨h1, h2, h3⟩ := h
    obtain ⟨⟨l1, l2⟩, l3, l4⟩ := ih h1
    constructor
    · constructor
      · simp only [aft, computeLow]
        refine bind_af _ l1 fun r hr => ?_
        simp only [aft_st]
        have hb := (l2 _ hr).2
        rw [show (afSt c k r.1.st).zlow = afs c k r.1.st.zlow from boundOk_ne hb,
          show ivA (afEnv c k P' env).params I = ivA env.params I from h2.1,
          show ivB (afEnv c k P' env).params I = ivB env.params I from h2.2]
        refine bind_af _ (alwLow_af hk s _ _ _ (hb.imp_right fun h => h.1) ?_) fun z _ => rfl
        rcases h3 with h3 | h3
        · exact .inl h3
        · rcases hb with hb | hb
          · exact .inl hb
          · refine .inr ⟨h3.2.1, h3.2.2.1, ?_⟩
            rw [← h3.2.2.2, ← (l2 _ hr).1.2.1]
            exact hb.2
      · simp only [computeLow]
        refine post_bind l2 fun r hr => post_bind alwLow_end fun z hz => post_ok ?_
        refine ⟨⟨⟨hr.1.1, h2, ?_⟩, rfl, rfl, id⟩, .inr hz⟩
        rw [hr.1.2.2.1, hr.1.2.1]
        exact h3
    · constructor
      · simp only [aft, computeUp]
        refine bind_af _ l3 fun r hr => ?_
        simp only [aft_st]
        have hb := (l4 _ hr).2
        rw [show (afSt c k r.1.st).zup = afs c k r.1.st.zup from boundOk_ne hb,
          show ivA (afEnv c k P' env).params I = ivA env.params I from h2.1,
          show ivB (afEnv c k P' env).params I = ivB env.params I from h2.2]
        refine bind_af _ (alwUp_af hk s _ _ _ (hb.imp_right fun h => h.1) ?_) fun z _ => rfl
        rcases h3 with h3 | h3
        · exact .inl h3
        · rcases hb with hb | hb
          · exact .inl hb
          · refine .inr ⟨h3.2.1, h3.2.2.1, ?_⟩
            rw [← h3.2.2.2, ← (l4 _ hr).1.2.1]
            exact hb.2
      · simp only [computeUp]
        refine post_bind l4 fun r hr => post_bind alwUp_end fun z hz => post_ok ?_
        refine ⟨⟨⟨hr.1.1, h2, ?_⟩, rfl, rfl, id⟩, .inr hz⟩
        rw [hr.1.2.2.1, hr.1.2.1]
        exact h3
  | untl s l I r ihl ihr =>
    intro h
    obtain ⟨rfl, h2, h3, h4⟩ := h
    obtain ⟨⟨l1, l2⟩, l3, l4⟩ := ihl h3
    obtain ⟨⟨r1, r2⟩, r3, r4⟩ := ihr h4
    constructor
    · constructor
      · simp only [aft, computeLow]
        have eB : ∀ v : ℚ, k * v = k * -env.B ↔ v = -env.B := fun v => mul_right_inj' hk.ne'
        rw [negB]
        refine bind_af _ l1 fun l hl => ?_
        simp only [eB]
        by_cases hv : l.2 = -env.B
        · rw [if_pos hv, if_pos hv]
          rfl
        · rw [if_neg hv, if_neg hv]
          refine bind_af _ r1 fun r hr => ?_
          simp only [eB]
          by_cases hw : r.2 = -env.B
          · rw [if_pos hw, if_pos hw]
            rfl
          · rw [if_neg hw, if_neg hw]
            simp only [aft_st]
            rw [show (afSt 0 k l.1.st).zlow = afs 0 k l.1.st.zlow from boundOk_ne (l2 _ hl).2,
              show (afSt 0 k r.1.st).zlow = afs 0 k r.1.st.zlow from boundOk_ne (r2 _ hr).2,
              show ivA (afEnv 0 k P' env).params I = ivA env.params I from h2.1,
              show ivB (afEnv 0 k P' env).params I = ivB env.params I from h2.2]
            exact bind_af _ (untilLow_af hk s _ _ _ _) fun z _ => rfl
      · simp only [computeLow]
        refine post_bind l2 fun l hl => post_ite (fun _ => post_ok ?_) fun _ => post_bind r2 fun r hr =>
          post_ite (fun _ => post_ok ?_) fun _ => post_bind' fun z => post_ok ?_
        · exact ⟨⟨⟨rfl, h2, hl.1.1, h4⟩, rfl, rfl, id⟩, .inl rfl⟩
        · exact ⟨⟨⟨rfl, h2, hl.1.1, hr.1.1⟩, rfl, rfl, id⟩, .inl rfl⟩
        · exact ⟨⟨⟨rfl, h2, hl.1.1, hr.1.1⟩, rfl, rfl, id⟩, .inl rfl⟩
    · constructor
      · simp only [aft, computeUp]
        have eB : ∀ v : ℚ, k * v = k * env.B ↔ v = env.B := fun v => mul_right_inj' hk.ne'
        rw [show (afEnv 0 k P' env).B = k * env.B from rfl]
        refine bind_af _ l3 fun l hl => ?_
        simp only [eB]
        by_cases hv : l.2 = env.B
        · rw [if_pos hv, if_pos hv]
          rfl
        · rw [if_neg hv, if_neg hv]
          refine bind_af _ r3 fun r hr => ?_
          simp only [eB]
          by_cases hw : r.2 = env.B
          · rw [if_pos hw, if_pos hw]
            rfl
          · rw [if_neg hw, if_neg hw]
            simp only [aft_st]
            rw [show (afSt 0 k l.1.st).zup = afs 0 k l.1.st.zup from boundOk_ne (l4 _ hl).2,
              show (afSt 0 k r.1.st).zup = afs 0 k r.1.st.zup from boundOk_ne (r4 _ hr).2,
              show ivA (afEnv 0 k P' env).params I = ivA env.params I from h2.1,
              show ivB (afEnv 0 k P' env).params I = ivB env.params I from h2.2]
            exact bind_af _ (untilUp_af hk s _ _ _ _) fun z _ => rfl
      · simp only [computeUp]
        refine post_bind l4 fun l hl => post_ite (fun _ => post_ok ?_) fun _ => post_bind r4 fun r hr =>
          post_ite (fun _ => post_ok ?_) fun _ => post_bind' fun z => post_ok ?_
        · exact ⟨⟨⟨rfl, h2, hl.1.1, h4⟩, rfl, rfl, id⟩, .inl rfl⟩
        · exact ⟨⟨⟨rfl, h2, hl.1.1, hr.1.1⟩, rfl, rfl, id⟩, .inl rfl⟩
        · exact ⟨⟨⟨rfl, h2, hl.1.1, hr.1.1⟩, rfl, rfl, id⟩, .inl rfl⟩

theorem run3_af (hk : 0 < k) (hs : k = 1 ∨ env.sem = .SPACE) {T : Tr}
    (h : AfOk c k env.data.length env.params P' T) :
    Monitor.run3 (afEnv c k P' env) (aft c k T) =
      (Monitor.run3 env T).map fun r => (aft c k r.1, k * r.2.1, k * r.2.2.1, k * r.2.2.2) := by
  unfold Monitor.run3
  obtain ⟨a1, a2⟩ := rob_af hk hs T h
  refine bind_af _ a1 fun r hr => ?_
  obtain ⟨⟨b1, b2⟩, -⟩ := low_up_af hk hs r.1 (a2 _ hr).1.1
  refine bind_af _ b1 fun r' hr' => ?_
  obtain ⟨-, ⟨b1, -⟩⟩ := low_up_af hk hs r'.1 (b2 _ hr').1.1
  exact bind_af _ b1 fun r'' _ => rfl

theorem run3_front (hk : 0 < k) (hs : k = 1 ∨ env.sem = .SPACE) {T : Tr}
    (h : AfOk c k env.data.length env.params P' T) :
    Post (fun r => r.1.st.z.samples ≠ []) (Monitor.run3 env T) := by
  unfold Monitor.run3
  refine post_bind (rob_af hk hs T h).2 fun r hr => ?_
  refine post_bind (low_up_af hk hs r.1 hr.1.1).1.2 fun r' hr' => ?_
  refine post_bind (low_up_af hk hs r'.1 hr'.1.1).2.2 fun r'' hr'' => post_ok ?_
  exact hr''.1.2.2.2 (hr'.1.2.2.2 hr.2)

/-! ## Preparation -/

theorem af0_empty : af0 c k Signal.empty = Signal.empty := rfl

theorem aft_prepare {P P' : Assoc ℚ} : ∀ (T : Tr) (s e : ℚ), Scalable k P P' T →
    aft c k (Monitor.prepare P s e T) = Monitor.prepare P' (s + c) (e + c) (scaleTree k T) := by
  unfold Monitor.prepare
  intro T
  induction T with
  | sig st v m td => intro s e _; rfl
  | const st p v td =>
    intro s e h
    simp only [setTraceData, setParamMap, reset, setHorizon, aft, scaleTree, const.injEq, and_true, true_and]
    refine ⟨rfl, ?_⟩
    unfold resolve
    rw [show P'.lookup p = (P.lookup p).map (k * ·) from h]
    cases P.lookup p <;> rfl
  | abs st x ih | not st x ih =>
    intro s e h
    simp only [setTraceData, setParamMap, reset, setHorizon, aft, scaleTree, ih s e h]
    rfl
  | plus st l r ihl ihr | minus st l r ihl ihr | and st l r ihl ihr | or st l r ihl ihr
  | implies st l r ihl ihr | atom st o l r ihl ihr =>
    intro s e h
    simp only [setTraceData, setParamMap, reset, setHorizon, aft, scaleTree, ihl s e h.1, ihr s e h.2]
    rfl
  | mult st l r ihl ihr =>
    intro s e h
    simp only [setTraceData, setParamMap, reset, setHorizon, aft, scaleTree, ihl s e h.2.1, ihr s e h.2.2]
    rfl
  | ev st I x ih | alw st I x ih =>
    intro s e h
    simp only [setTraceData, setParamMap, reset, setHorizon, aft, scaleTree, ih _ _ h.2.2]
    rw [ivA_eq, ivB_eq, ivA_eq, ivB_eq, h.1, h.2.1,
      show s + bound P I.beginStr I.begin + c = s + c + bound P I.beginStr I.begin by ring,
      show e + bound P I.stopStr I.stop + c = e + c + bound P I.stopStr I.stop by ring]
    rfl
  | untl st l I r ihl ihr =>
    intro s e h
    simp only [setTraceData, setParamMap, reset, setHorizon, aft, scaleTree, ihl _ _ h.2.2.1, ihr _ _ h.2.2.2]
    rw [ivA_eq, ivB_eq, ivA_eq, ivB_eq, h.1, h.2.1,
      show s + bound P I.beginStr I.begin + c = s + c + bound P I.beginStr I.begin by ring,
      show e + bound P I.stopStr I.stop + c = e + c + bound P I.stopStr I.stop by ring]
    rfl

theorem sameI_of {P P' : Assoc ℚ} {I : Ival} (h1 : bound P' I.beginStr I.begin = bound P I.beginStr I.begin)
    (h2 : bound P' I.stopStr I.stop = bound P I.stopStr I.stop) : SameI P P' I :=
  ⟨by rw [ivA_eq, ivA_eq, h1], by rw [ivB_eq, ivB_eq, h2]⟩

theorem afOk_scaled {P P' : Assoc ℚ} {n : ℕ} : ∀ (T : Tr) (s e : ℚ), Scalable k P P' T →
    AfOk 0 k n P P' (Monitor.prepare P s e T) := by
  unfold Monitor.prepare
  intro T
  induction T with
  | sig st v m td => intro s e _; exact .inl rfl
  | const st p v td =>
    intro s e h
    refine ⟨.inr ?_, .inl rfl⟩
    rw [show P'.lookup p = (P.lookup p).map (k * ·) from h]
    cases P.lookup p <;> simp
  | abs st x ih => intro s e h; exact ih s e h
  | not st x ih => intro s e h; exact ⟨ih s e h, by cases x <;> rfl⟩
  | plus st l r ihl ihr | minus st l r ihl ihr | and st l r ihl ihr | or st l r ihl ihr
  | implies st l r ihl ihr | atom st o l r ihl ihr => intro s e h; exact ⟨ihl s e h.1, ihr s e h.2⟩
  | mult st l r ihl ihr => intro s e h; exact ⟨h.1, ihl s e h.2.1, ihr s e h.2.2⟩
  | ev st I x ih | alw st I x ih =>
    intro s e h
    exact ⟨ih _ _ h.2.2, sameI_of h.1 h.2.1, .inl rfl⟩
  | untl st l I r ihl ihr =>
    intro s e h
    exact ⟨rfl, sameI_of h.1 h.2.1, ihl _ _ h.2.2.1, ihr _ _ h.2.2.2⟩

theorem scalable_one {P : Assoc ℚ} : ∀ T : Tr, Scalable 1 P P T := by
  intro T
  induction T with
  | sig => exact trivial
  | const st p v td =>
    unfold Scalable
    cases P.lookup p <;> simp
  | abs _ _ ih | not _ _ ih => exact ih
  | plus _ _ _ ihl ihr | minus _ _ _ ihl ihr | and _ _ _ ihl ihr | or _ _ _ ihl ihr
  | implies _ _ _ ihl ihr | atom _ _ _ _ ihl ihr => exact ⟨ihl, ihr⟩
  | mult _ _ _ ihl ihr => exact ⟨rfl, ihl, ihr⟩
  | ev _ _ _ ih | alw _ _ _ ih => exact ⟨rfl, rfl, ih⟩
  | untl _ _ _ _ ihl ihr => exact ⟨rfl, rfl, ihl, ihr⟩

theorem scaleTree_one : ∀ T : Tr, scaleTree 1 T = T := by
  intro T
  induction T <;> simp_all [scaleTree]

theorem afOk_expr {P : Assoc ℚ} {n m : ℕ} : ∀ (T : Tr) (s e : ℚ), IsExpr m T → 0 ≤ e → 0 ≤ e + c →
    AfOk c 1 n P P (Monitor.prepare P s e T) := by
  unfold Monitor.prepare
  intro T
  induction T with
  | sig st v m td =>
    rintro s e ⟨i, hi, h0, -⟩ h1 h2
    refine .inr ⟨⟨h1, h2, ?_⟩, .inr ?_⟩
    · rcases Nat.eq_zero_or_pos n with h | h
      · exact .inl h
      · refine .inr (.inr fun i hi => ?_)
        cases hi
        exact h
    · rw [hi]
      exact h0.ne'
  | const st p v td =>
    intro s e _ h1 h2
    refine ⟨.inr (one_mul _).symm, .inr ⟨h1, h2, ?_⟩⟩
    rcases Nat.eq_zero_or_pos n with h | h
    · exact .inl h
    · refine .inr (.inr fun i hi => ?_)
      cases hi
      exact h
  | abs st x ih => intro s e h h1 h2; exact ih s e h h1 h2
  | plus st l r ihl ihr | minus st l r ihl ihr =>
    intro s e h h1 h2; exact ⟨ihl s e h.1 h1 h2, ihr s e h.2 h1 h2⟩
  | mult st l r ihl ihr =>
    intro s e h h1 h2; exact ⟨rfl, ihl s e h.1 h1 h2, ihr s e h.2 h1 h2⟩
  | _ => intro s e h; exact h.elim

theorem prepare_st (P : Assoc ℚ) (s e : ℚ) (T : Tr) : (Monitor.prepare P s e T).st.start = s := by
  cases T <;> rfl

theorem leafB_formula {P : Assoc ℚ} {m : ℕ} {T : Tr} (s e : ℚ) (h : IsFormula m P T) :
    leafB (Monitor.prepare P s e T) = false := by
  cases T <;> first | rfl | exact h.elim

theorem afOk_formula {P : Assoc ℚ} {n m : ℕ} : ∀ (T : Tr) (s e : ℚ), IsFormula m P T → 0 ≤ s → 0 ≤ s + c →
    0 ≤ e → 0 ≤ e + c → AfOk c 1 n P P (Monitor.prepare P s e T) := by
  intro T
  induction T with
  | atom st o l r =>
    intro s e h _ _ h1 h2
    exact ⟨afOk_expr l s e h.1 h1 h2, afOk_expr r s e h.2 h1 h2⟩
  | not st x ih =>
    intro s e h h1 h2 h3 h4
    exact ⟨ih s e h h1 h2 h3 h4, prepare_st P s e x⟩
  | and st l r ihl ihr | or st l r ihl ihr | implies st l r ihl ihr =>
    intro s e h h1 h2 h3 h4
    exact ⟨ihl s e h.1 h1 h2 h3 h4, ihr s e h.2 h1 h2 h3 h4⟩
  | ev st I x ih | alw st I x ih =>
    intro s e h h1 h2 h3 h4
    obtain ⟨ha, hb, hx⟩ := h
    rw [← ivA_eq] at ha hb
    rw [← ivB_eq] at hb
    refine ⟨ih (s + ivA P I) (e + ivB P I) hx (by linarith) (by linarith) (by linarith) (by linarith),
      ⟨rfl, rfl⟩, .inr ⟨leafB_formula _ _ hx, h1, h2, prepare_st P _ _ x⟩⟩
  | _ => intro s e h; exact h.elim

end Tr

namespace Monitor
open Tr Signal

/-- Two evaluations whose trees agree up to the map. -/
theorem evalRob_af {c k : ℚ} (hk : 0 < k) {P' : Assoc ℚ} (g : Globals) (m : Monitor) (T : Tr) (s e : ℚ)
    (hT : m.formula = some T) (hs : k = 1 ∨ m.sem = .SPACE) (hsc : Scalable k m.params P' T)
    (hok : AfOk c k m.data.length m.params P' (prepare m.params s e T)) :
    let r := evalRob g m s e
    let r' := evalRob { g with B := k * g.B }
      { m with data := moved c k m.data, params := P', formula := some (scaleTree k T) } (s + c) (e + c)
    r'.2.2 = r.2.2.map (k * ·) ∧
      ∀ v, r.2.2 = .ok v → r'.2.1.lowerRob = k * r.2.1.lowerRob ∧ r'.2.1.upperRob = k * r.2.1.upperRob ∧
        r'.2.1.getSignal = r.2.1.getSignal.map (movedSignal c k) := by
  have hrun := run3_af (c := c) hk (env := ⟨g.B, m.sem, m.ip, m.data, m.params⟩) (P' := P') hs hok
  have hne := run3_front (c := c) hk (env := ⟨g.B, m.sem, m.ip, m.data, m.params⟩) (P' := P') hs hok
  rw [aft_prepare T s e hsc] at hrun
  simp only [afEnv] at hrun
  simp only [evalRob, hT, hrun]
  cases hr : run3 ⟨g.B, m.sem, m.ip, m.data, m.params⟩ (prepare m.params s e T) with
  | error f => simp [Except.map]
  | ok r =>
    obtain ⟨T', v, lo, up⟩ := r
    refine ⟨rfl, fun w _ => ⟨rfl, rfl, ?_⟩⟩
    have hz : T'.st.z.samples ≠ [] := hne _ hr
    simp only [Monitor.getSignal, Except.map, Tr.getSignal, aft_st]
    rw [show (afSt c k T'.st).z = afs c k T'.st.z from af0_ne hz]
    rfl

end Monitor
end STLRom
