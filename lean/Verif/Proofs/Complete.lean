import Verif.Model.Complete
import Verif.Proofs.History
import Verif.Proofs.PartialSound
import Verif.Spec.Complete

/-!
# The signals of formulas without temporal operators end with the rows
-/

namespace STLRom
open Signal

/-- No sample of the signal lies after `d`, and it does not end after `d`. -/
def Upto (d : ℚ) (z : Signal) : Prop := z.endTime ≤ d ∧ ∀ p ∈ z.samples, p.time ≤ d

section
variable {d : ℚ}

theorem setBack_times {l : List Sample} {x : ℚ} (h : ∀ p ∈ l, p.time ≤ d) : ∀ p ∈ setBackDerivative l x, p.time ≤ d := by
  unfold setBackDerivative
  intro p hp
  split at hp
  · exact h p hp
  · rename_i q hq
    rcases List.mem_append.1 hp with hp | hp
    · exact h p (List.dropLast_subset _ hp)
    · rw [List.mem_singleton.1 hp]
      exact h q (List.mem_of_getLast? hq)

theorem Upto.append {ip : Interpol} {z z' : Signal} {t v x : ℚ} (hz : Upto d z) (ht : t ≤ d)
    (h : appendSample ip z t v x = .ok z') : Upto d z' := by
  unfold appendSample at h
  split at h
  · cases h; exact hz
  cases ip with
  | PREVIOUS =>
    simp only at h
    split at h
    · cases h
      exact ⟨ht, by simpa using ht⟩
    · cases h
      refine ⟨ht, fun p hp => ?_⟩
      rcases List.mem_append.1 hp with hp | hp
      · exact hz.2 p hp
      · rw [List.mem_singleton.1 hp]; exact ht
  | LINEAR =>
    simp only at h
    split at h
    · cases h
      exact ⟨ht, by simpa using ht⟩
    · rename_i b hb
      cases hq : qdiv (v - b.value) (t - b.time) with
      | error f => rw [hq] at h; cases h
      | ok q =>
        rw [hq] at h
        cases h
        refine ⟨ht, fun p hp => ?_⟩
        rcases List.mem_append.1 hp with hp | hp
        · exact setBack_times hz.2 p hp
        · rw [List.mem_singleton.1 hp]; exact ht

theorem trimFront_sub (s : ℚ) : ∀ (l : List Sample) (f : Sample), (trimFront s f l).2 ⊆ l
  | [], _ => by simp [trimFront]
  | p :: r, f => by
    unfold trimFront
    split
    · exact fun q hq => List.mem_cons_of_mem _ (trimFront_sub s r p hq)
    · exact fun q hq => hq

theorem Upto.resize {z z' : Signal} {s t v : ℚ} (hz : Upto d z) (hs : s ≤ d) (ht : t ≤ d) (h0 : 0 ≤ d)
    (h : Signal.resize z s t v = .ok z') : Upto d z' := by
  unfold Signal.resize at h
  split at h
  · cases h
    exact ⟨h0, by simp⟩
  cases hf : resizeFront z s with
  | error f => rw [hf] at h; cases h
  | ok x1 =>
    rw [hf] at h
    have h1 : Upto d x1 := by
      unfold resizeFront at hf
      split at hf
      · split at hf
        · cases hf
        · rename_i p r e
          cases hf
          refine ⟨hz.1, fun q hq => ?_⟩
          rcases List.mem_cons.1 hq with rfl | hq
          · exact hs
          · exact hz.2 q hq
      · have sub := trimFront_sub s z.samples Sample.zero
        split at hf
        · cases hf
          refine ⟨?_, by simpa using hs⟩
          show (if z.endTime < s then s else z.endTime) ≤ d
          split
          · exact hs
          · exact hz.1
        · rename_i f p r e
          rw [e] at sub
          split at hf
          · cases hf
            refine ⟨hz.1, fun q hq => ?_⟩
            rcases List.mem_cons.1 hq with rfl | hq
            · exact hs
            · exact hz.2 q (sub hq)
          · cases hf
            exact ⟨hz.1, fun q hq => hz.2 q (sub hq)⟩
    have h2 : resizeBack x1 s (if t < s then s else t) v = .ok z' := h
    have ht' : (if t < s then s else t) ≤ d := by split <;> assumption
    generalize (if t < s then s else t) = u at h2 ht'
    unfold resizeBack at h2
    have hl : ∀ l, (if x1.endTime < u then
        match x1.samples.getLast? with
        | none => .error .ub
        | some b =>
          if b.value ≠ v ∨ b.derivative ≠ 0 then .ok (x1.samples ++ [⟨x1.endTime, v, 0⟩])
          else .ok x1.samples
      else .ok (trimBack u x1.samples) : M (List Sample)) = .ok l → ∀ p ∈ l, p.time ≤ d := by
      intro l hl p hp
      split at hl
      · split at hl
        · cases hl
        · split at hl
          · cases hl
            rcases List.mem_append.1 hp with hp | hp
            · exact h1.2 p hp
            · rw [List.mem_singleton.1 hp]; exact h1.1
          · cases hl; exact h1.2 p hp
      · cases hl
        unfold trimBack at hp
        exact h1.2 p (by
          have := (List.dropWhile_sublist _).subset (List.mem_reverse.1 hp)
          exact List.mem_reverse.1 this)
    revert h2 hl
    generalize (if x1.endTime < u then
        match x1.samples.getLast? with
        | none => .error .ub
        | some b =>
          if b.value ≠ v ∨ b.derivative ≠ 0 then .ok (x1.samples ++ [⟨x1.endTime, v, 0⟩])
          else .ok x1.samples
      else .ok (trimBack u x1.samples) : M (List Sample)) = r
    intro h2 hl
    cases r with
    | error f => cases h2
    | ok l =>
      cases h2
      refine ⟨ht', fun p hp => ?_⟩
      simp only at hp
      split at hp
      · rw [List.mem_singleton.1 hp]; exact hs
      · exact hl l rfl p hp

theorem simplify_end {x z : Signal} (h : simplify x = .ok z) : z.endTime = x.endTime := by
  unfold simplify at h
  split at h
  · cases h
  · rename_i p r e
    cases hl : simplifyLoop x.beginTime (r.length + 1) (r ++ [p]) with
    | error f => rw [hl] at h; cases h
    | ok l =>
      rw [hl] at h
      simp only [bind, Except.bind] at h
      split at h
      · cases h
      · split at h <;> (cases h; rfl)

theorem computeAndM_end {x y z : Signal} (h : computeAndM x y = .ok z) : z.endTime ≤ x.endTime ∧ z.endTime ≤ y.endTime := by
  unfold computeAndM at h
  cases hi : skipGuarded (fmin x.endTime y.endTime) x.samples.reverse with
  | error f => simp only [hi, bind, Except.bind] at h; cases h
  | ok is =>
    cases hj : skipGuarded (fmin x.endTime y.endTime) y.samples.reverse with
    | error f => simp only [hi, hj, bind, Except.bind] at h; cases h
    | ok js =>
      cases hp : partialAnd (fmax x.beginTime y.beginTime) [] is js (fmin x.endTime y.endTime) with
      | error f => simp only [hi, hj, hp, bind, Except.bind] at h; cases h
      | ok l =>
        simp only [hi, hj, hp, bind, Except.bind] at h
        rw [simplify_end h]
        unfold fmin
        constructor <;> (show (if _ then _ else _) ≤ _; split <;> linarith)

theorem computeOrM_end {x y z : Signal} (h : computeOrM x y = .ok z) : z.endTime ≤ x.endTime ∧ z.endTime ≤ y.endTime := by
  unfold computeOrM at h
  cases hi : skipGuarded (fmin x.endTime y.endTime) x.samples.reverse with
  | error f => simp only [hi, bind, Except.bind] at h; cases h
  | ok is =>
    cases hj : skipGuarded (fmin x.endTime y.endTime) y.samples.reverse with
    | error f => simp only [hi, hj, bind, Except.bind] at h; cases h
    | ok js =>
      cases hp : partialOr (fmax x.beginTime y.beginTime) [] is js (fmin x.endTime y.endTime) with
      | error f => simp only [hi, hj, hp, bind, Except.bind] at h; cases h
      | ok l =>
        simp only [hi, hj, hp, bind, Except.bind] at h
        rw [simplify_end h]
        unfold fmin
        constructor <;> (show (if _ then _ else _) ≤ _; split <;> linarith)

/-! ## Trees -/

/-- In a formula without temporal operators no signal goes beyond `d`. -/
def UpTree (d : ℚ) : Tr → Prop
  | .sig s _ _ _ | .const s _ _ _ => Upto d s.z
  | .abs s c => Upto d s.z ∧ UpTree d c
  | .plus s l r | .minus s l r | .mult s l r => Upto d s.z ∧ UpTree d l ∧ UpTree d r
  | .atom s _ l r | .and s l r | .or s l r | .implies s l r => s.z.endTime ≤ d ∧ UpTree d l ∧ UpTree d r
  | .not s c => s.z.endTime ≤ d ∧ UpTree d c
  | _ => False

theorem UpTree.st {T : Tr} (h : UpTree d T) : T.st.z.endTime ≤ d := by
  cases T <;> first | exact h.elim | exact h.1.1 | exact h.1

theorem UpTree.setZ {T : Tr} {z : Signal} (h : UpTree d T) (ht : Spec.IsTimeless T) (hz : z.endTime ≤ d) :
    UpTree d (Tr.setZ z T) := by
  cases T <;> first | exact ht.elim | exact ⟨hz, h.2⟩

theorem cell_zero_time {row : List ℚ} {t : ℚ} (h : Tr.cell row 0 = .ok t) : rowTime row = t := by
  unfold Tr.cell at h
  cases row with
  | nil => cases h
  | cons x r => simp only [List.getElem?_cons_zero, Except.ok.injEq] at h; subst h; rfl

theorem sigRead_upto {ip : Interpol} {i : ℕ} {stop : ℚ} : ∀ {rows : List (List ℚ)} {z z' : Signal} {td td' : ℕ}
    {t v t' v' : ℚ}, (∀ row ∈ rows, rowTime row ≤ d) → Upto d z → t ≤ d →
    Tr.sigRead ip i stop rows z td t v = .ok (z', td', t', v') → Upto d z' ∧ t' ≤ d := by
  intro rows
  induction rows with
  | nil =>
    intro z z' td td' t v t' v' _ hz ht h
    cases h; exact ⟨hz, ht⟩
  | cons row rows ih =>
    intro z z' td td' t v t' v' hr hz ht h
    unfold Tr.sigRead at h
    split at h
    · obtain ⟨t1, h1, h⟩ := bind_eq_ok.1 h
      obtain ⟨v1, h2, h⟩ := bind_eq_ok.1 h
      obtain ⟨z1, h3, h⟩ := bind_eq_ok.1 h
      have := hr row (by simp)
      rw [cell_zero_time h1] at this
      exact ih (fun r hr' => hr r (by simp [hr'])) (hz.append this h3) this h
    · cases h; exact ⟨hz, ht⟩

theorem constRead_upto {ip : Interpol} {x stop : ℚ} : ∀ {rows : List (List ℚ)} {z z' : Signal} {td td' : ℕ}
    {t t' : ℚ}, (∀ row ∈ rows, rowTime row ≤ d) → Upto d z → t ≤ d →
    Tr.constRead ip x stop rows z td t = .ok (z', td', t') → Upto d z' ∧ t' ≤ d := by
  intro rows
  induction rows with
  | nil =>
    intro z z' td td' t t' _ hz ht h
    cases h; exact ⟨hz, ht⟩
  | cons row rows ih =>
    intro z z' td td' t t' hr hz ht h
    unfold Tr.constRead at h
    split at h
    · obtain ⟨t1, h1, h⟩ := bind_eq_ok.1 h
      obtain ⟨z1, h3, h⟩ := bind_eq_ok.1 h
      have := hr row (by simp)
      rw [cell_zero_time h1] at this
      exact ih (fun r hr' => hr r (by simp [hr'])) (hz.append this h3) this h
    · cases h; exact ⟨hz, ht⟩

theorem leafTrim_upto {start stop t v : ℚ} {z z' : Signal} (h0 : 0 ≤ d) (hz : Upto d z) (ht : t ≤ d)
    (h : Tr.leafTrim start stop z t v = .ok z') : Upto d z' := by
  unfold Tr.leafTrim at h
  have h1 : Upto d (if stop < t then { z with endTime := stop } else z) := by
    split
    · rename_i hs; exact ⟨by simpa using (hs.le.trans ht), hz.2⟩
    · exact hz
  simp only at h
  generalize (if stop < t then { z with endTime := stop } else z) = y at h h1
  split at h
  · rename_i hs
    exact h1.resize (hs.le.trans h1.1) (max_le (hs.le.trans h1.1) h1.1) h0 h
  · exact h1.resize h1.1 h1.1 h0 h

theorem absLoop_upto {ip : Interpol} : ∀ {l : List Sample} {z z' : Signal}, (∀ p ∈ l, p.time ≤ d) → Upto d z →
    Tr.absLoop ip z l = .ok z' → Upto d z' := by
  intro l
  induction l with
  | nil => intro z z' _ hz h; cases h; exact hz
  | cons p l ih =>
    intro z z' hl hz h
    obtain ⟨z1, h1, h⟩ := bind_eq_ok.1 h
    exact ih (fun q hq => hl q (by simp [hq])) (hz.append (hl p (by simp)) h1) h

theorem binLoop_upto {ip : Interpol} {f : ℚ → ℚ → ℚ} : ∀ {l r : List Sample} {z z' : Signal},
    (∀ p ∈ l, p.time ≤ d) → Upto d z → Tr.binLoop ip f z l r = .ok z' → Upto d z' := by
  intro l
  induction l with
  | nil => intro r z z' _ hz h; cases r <;> (cases h; exact hz)
  | cons p l ih =>
    intro r z z' hl hz h
    cases r with
    | nil => cases h
    | cons q r =>
      obtain ⟨z1, h1, h⟩ := bind_eq_ok.1 h
      exact ih (fun q hq => hl q (by simp [hq])) (hz.append (hl p (by simp)) h1) h

section
variable {env : Env}

theorem term_ends (h0 : 0 ≤ d) (hr : ∀ row ∈ env.data, rowTime row ≤ d) : ∀ {T T' : Tr} {x : ℚ}, Spec.IsTerm T →
    UpTree d T → Tr.computeRob env T = .ok (T', x) → UpTree d T' ∧ Upto d T'.st.z := by
  intro T
  induction T with
  | sig s v m td =>
    intro T' x _ hT h
    obtain ⟨⟨z, td', r⟩, h1, h⟩ := bind_eq_ok.1 h
    cases h
    have hz : Upto d z := by
      unfold Tr.sigRob at h1
      split at h1
      · obtain ⟨z1, h2, h1⟩ := bind_eq_ok.1 h1
        obtain ⟨p, h3, h1⟩ := bind_eq_ok.1 h1
        cases h1
        exact leafTrim_upto h0 hT h0 h2
      · split at h1
        · cases h1
        · split at h1
          · cases h1
          · obtain ⟨⟨z1, td1, t1, v1⟩, h2, h1⟩ := bind_eq_ok.1 h1
            obtain ⟨z2, h3, h1⟩ := bind_eq_ok.1 h1
            obtain ⟨p, h4, h1⟩ := bind_eq_ok.1 h1
            cases h1
            obtain ⟨a, b⟩ := sigRead_upto (fun row h => hr row (List.mem_of_mem_drop h)) hT h0 h2
            exact leafTrim_upto h0 a b h3
    exact ⟨hz, hz⟩
  | const s p v td =>
    intro T' x _ hT h
    obtain ⟨⟨z, td'⟩, h1, h⟩ := bind_eq_ok.1 h
    cases h
    have hz : Upto d z := by
      unfold Tr.constRob at h1
      split at h1
      · cases h1
      · split at h1
        · cases h1
        · obtain ⟨⟨z1, td1, t1⟩, h2, h1⟩ := bind_eq_ok.1 h1
          obtain ⟨z2, h3, h1⟩ := bind_eq_ok.1 h1
          cases h1
          obtain ⟨a, b⟩ := constRead_upto (fun row h => hr row (List.mem_of_mem_drop h)) hT h0 h2
          exact leafTrim_upto h0 a b h3
    exact ⟨hz, hz⟩
  | abs s c ih =>
    intro T' x ht hT h
    obtain ⟨⟨c', y⟩, h1, h⟩ := bind_eq_ok.1 h
    obtain ⟨z, h2, h⟩ := bind_eq_ok.1 h
    obtain ⟨p, h3, h⟩ := bind_eq_ok.1 h
    cases h
    obtain ⟨a, b⟩ := ih ht hT.2 h1
    have hz := absLoop_upto b.2 hT.1 h2
    exact ⟨⟨hz, a⟩, hz⟩
  | plus s l r ih1 ih2 | minus s l r ih1 ih2 | mult s l r ih1 ih2 =>
    intro T' x ht hT h
    obtain ⟨⟨l', y⟩, h1, h⟩ := bind_eq_ok.1 h
    obtain ⟨⟨r', y'⟩, h2, h⟩ := bind_eq_ok.1 h
    obtain ⟨z, h3, h⟩ := bind_eq_ok.1 h
    obtain ⟨p, h4, h⟩ := bind_eq_ok.1 h
    cases h
    obtain ⟨a, b⟩ := ih1 ht.1 hT.2.1 h1
    obtain ⟨a', b'⟩ := ih2 ht.2 hT.2.2 h2
    have hz := binLoop_upto b.2 hT.1 h3
    exact ⟨⟨hz, a, a'⟩, hz⟩
  | _ => intro T' x ht; exact ht.elim

theorem term_keep : ∀ {T T' : Tr} {x : ℚ}, Spec.IsTerm T → Tr.computeRob env T = .ok (T', x) → Spec.IsTerm T' := by
  intro T
  induction T with
  | sig | const =>
    intro T' x ht h
    obtain ⟨_, _, h⟩ := bind_eq_ok.1 h
    cases h; exact trivial
  | abs s c ih =>
    intro T' x ht h
    obtain ⟨⟨c', y⟩, h1, h⟩ := bind_eq_ok.1 h
    obtain ⟨z, h2, h⟩ := bind_eq_ok.1 h
    obtain ⟨p, h3, h⟩ := bind_eq_ok.1 h
    cases h; exact (show Spec.IsTerm c' from ih ht h1)
  | plus s l r ih1 ih2 | minus s l r ih1 ih2 | mult s l r ih1 ih2 =>
    intro T' x ht h
    obtain ⟨⟨l', y⟩, h1, h⟩ := bind_eq_ok.1 h
    obtain ⟨⟨r', y'⟩, h2, h⟩ := bind_eq_ok.1 h
    obtain ⟨z, h3, h⟩ := bind_eq_ok.1 h
    obtain ⟨p, h4, h⟩ := bind_eq_ok.1 h
    cases h; exact ⟨ih1 ht.1 h1, ih2 ht.2 h2⟩
  | _ => intro T' x ht; exact ht.elim

theorem timeless_upto (h0 : 0 ≤ d) (hs : env.sem = .SPACE) (hr : ∀ row ∈ env.data, rowTime row ≤ d) :
    ∀ {T T' : Tr} {x : ℚ}, Spec.IsTimeless T → UpTree d T → Tr.computeRob env T = .ok (T', x) →
      UpTree d T' ∧ Spec.IsTimeless T' := by
  intro T
  induction T with
  | atom s k l r =>
    intro T' x ht hT h
    obtain ⟨⟨l', y⟩, h1, h⟩ := bind_eq_ok.1 h
    obtain ⟨⟨r', y'⟩, h2, h⟩ := bind_eq_ok.1 h
    obtain ⟨z, h3, h⟩ := bind_eq_ok.1 h
    obtain ⟨p, h4, h⟩ := bind_eq_ok.1 h
    cases h
    obtain ⟨a, b⟩ := term_ends h0 hr ht.1 hT.2.1 h1
    obtain ⟨a', _⟩ := term_ends h0 hr ht.2 hT.2.2 h2
    refine ⟨⟨?_, a, a'⟩, term_keep ht.1 h1, term_keep ht.2 h2⟩
    unfold Tr.atomRob at h3
    obtain ⟨z1, h5, h3⟩ := bind_eq_ok.1 h3
    simp only [hs, Except.ok.injEq] at h3
    rw [← h3]
    exact b.1
  | not s c ih =>
    intro T' x ht hT h
    obtain ⟨⟨c', y⟩, h1, h⟩ := bind_eq_ok.1 h
    obtain ⟨p, h3, h⟩ := bind_eq_ok.1 h
    cases h
    obtain ⟨a, b⟩ := ih ht hT.2 h1
    exact ⟨⟨a.st, a⟩, b⟩
  | and s l r ih1 ih2 =>
    intro T' x ht hT h
    obtain ⟨⟨l', y⟩, h1, h⟩ := bind_eq_ok.1 h
    obtain ⟨⟨r', y'⟩, h2, h⟩ := bind_eq_ok.1 h
    obtain ⟨z, h3, h⟩ := bind_eq_ok.1 h
    obtain ⟨p, h4, h⟩ := bind_eq_ok.1 h
    cases h
    obtain ⟨a, b⟩ := ih1 ht.1 hT.2.1 h1
    obtain ⟨a', b'⟩ := ih2 ht.2 hT.2.2 h2
    exact ⟨⟨(computeAndM_end h3).1.trans (max_le a.st a'.st), a, a'⟩, b, b'⟩
  | or s l r ih1 ih2 =>
    intro T' x ht hT h
    obtain ⟨⟨l', y⟩, h1, h⟩ := bind_eq_ok.1 h
    obtain ⟨⟨r', y'⟩, h2, h⟩ := bind_eq_ok.1 h
    obtain ⟨z, h3, h⟩ := bind_eq_ok.1 h
    obtain ⟨p, h4, h⟩ := bind_eq_ok.1 h
    cases h
    obtain ⟨a, b⟩ := ih1 ht.1 hT.2.1 h1
    obtain ⟨a', b'⟩ := ih2 ht.2 hT.2.2 h2
    exact ⟨⟨(computeOrM_end h3).1.trans (max_le a.st a'.st), a, a'⟩, b, b'⟩
  | implies s l r ih1 ih2 =>
    intro T' x ht hT h
    obtain ⟨⟨l', y⟩, h1, h⟩ := bind_eq_ok.1 h
    obtain ⟨⟨r', y'⟩, h2, h⟩ := bind_eq_ok.1 h
    obtain ⟨z, h3, h⟩ := bind_eq_ok.1 h
    obtain ⟨p, h4, h⟩ := bind_eq_ok.1 h
    cases h
    obtain ⟨a, b⟩ := ih1 ht.1 hT.2.1 h1
    obtain ⟨a', b'⟩ := ih2 ht.2 hT.2.2 h2
    exact ⟨⟨(computeOrM_end h3).2.trans a'.st, a, a'⟩, b, b'⟩
  | _ => intro T' x ht; exact ht.elim

/-- Neither bound moves the ends. -/
theorem bounds_upto (h0 : 0 ≤ d) (hs : env.sem = .SPACE) (hr : ∀ row ∈ env.data, rowTime row ≤ d) : ∀ {T : Tr},
    Spec.IsTimeless T → UpTree d T →
    (∀ {T' : Tr} {x : ℚ}, Tr.computeLow env T = .ok (T', x) → UpTree d T' ∧ Spec.IsTimeless T') ∧
    (∀ {T' : Tr} {x : ℚ}, Tr.computeUp env T = .ok (T', x) → UpTree d T' ∧ Spec.IsTimeless T') := by
  intro T
  induction T with
  | atom s k l r =>
    intro ht hT
    constructor <;> intro T' x h
    all_goals
      obtain ⟨⟨T1, y⟩, h1, h⟩ := bind_eq_ok.1 h
      obtain ⟨z, h2, h⟩ := bind_eq_ok.1 h
      obtain ⟨p, h3, h⟩ := bind_eq_ok.1 h
      cases h
      obtain ⟨a, b⟩ := timeless_upto h0 hs hr ht hT h1
      cases T1 <;> first | exact b.elim | exact ⟨⟨a.1, a.2⟩, b⟩
  | not s c ih =>
    intro ht hT
    obtain ⟨i1, i2⟩ := ih ht hT.2
    constructor <;> intro T' x h
    all_goals
      obtain ⟨⟨T1, y⟩, h1, h⟩ := bind_eq_ok.1 h
      simp only at h
      split at h
      · obtain ⟨z, h2, h⟩ := bind_eq_ok.1 h
        cases h
        first
          | exact ⟨⟨hT.1, (i1 h1).1⟩, (i1 h1).2⟩
          | exact ⟨⟨hT.1, (i2 h1).1⟩, (i2 h1).2⟩
      · obtain ⟨z, h2, h⟩ := bind_eq_ok.1 h
        cases h
        first
          | exact ⟨⟨hT.1, (i1 h1).1⟩, (i1 h1).2⟩
          | exact ⟨⟨hT.1, (i2 h1).1⟩, (i2 h1).2⟩
  | and s l r ih1 ih2 | or s l r ih1 ih2 =>
    intro ht hT
    obtain ⟨i1, i2⟩ := ih1 ht.1 hT.2.1
    obtain ⟨j1, j2⟩ := ih2 ht.2 hT.2.2
    constructor <;> intro T' x h
    all_goals
      obtain ⟨⟨T1, y⟩, h1, h⟩ := bind_eq_ok.1 h
      obtain ⟨⟨T2, y'⟩, h2, h⟩ := bind_eq_ok.1 h
      obtain ⟨z, h3, h⟩ := bind_eq_ok.1 h
      obtain ⟨p, h4, h⟩ := bind_eq_ok.1 h
      cases h
      first
        | exact ⟨⟨hT.1, (i1 h1).1, (j1 h2).1⟩, (i1 h1).2, (j1 h2).2⟩
        | exact ⟨⟨hT.1, (i2 h1).1, (j2 h2).1⟩, (i2 h1).2, (j2 h2).2⟩
  | implies s l r ih1 ih2 =>
    intro ht hT
    obtain ⟨i1, i2⟩ := ih1 ht.1 hT.2.1
    obtain ⟨j1, j2⟩ := ih2 ht.2 hT.2.2
    constructor <;> intro T' x h
    all_goals
      obtain ⟨⟨T1, y⟩, h1, h⟩ := bind_eq_ok.1 h
      obtain ⟨⟨T2, y'⟩, h2, h⟩ := bind_eq_ok.1 h
      obtain ⟨z, h3, h⟩ := bind_eq_ok.1 h
      obtain ⟨p, h4, h⟩ := bind_eq_ok.1 h
      cases h
      first
        | exact ⟨⟨hT.1, (i2 h1).1, (j1 h2).1⟩, (i2 h1).2, (j1 h2).2⟩
        | exact ⟨⟨hT.1, (i1 h1).1, (j2 h2).1⟩, (i1 h1).2, (j2 h2).2⟩
  | _ => intro ht; exact ht.elim


theorem UpTree.mono {d' : ℚ} (hd : d ≤ d') : ∀ {T : Tr}, UpTree d T → UpTree d' T := by
  have hz : ∀ {z : Signal}, Upto d z → Upto d' z := fun h => ⟨h.1.trans hd, fun p hp => (h.2 p hp).trans hd⟩
  intro T
  induction T with
  | sig | const => exact hz
  | abs _ _ ih => exact fun h => ⟨hz h.1, ih h.2⟩
  | plus _ _ _ i1 i2 | minus _ _ _ i1 i2 | mult _ _ _ i1 i2 => exact fun h => ⟨hz h.1, i1 h.2.1, i2 h.2.2⟩
  | atom _ _ _ _ i1 i2 | and _ _ _ i1 i2 | or _ _ _ i1 i2 | implies _ _ _ i1 i2 =>
    exact fun h => ⟨h.1.trans hd, i1 h.2.1, i2 h.2.2⟩
  | not _ _ ih => exact fun h => ⟨h.1.trans hd, ih h.2⟩
  | _ => exact fun h => h.elim

theorem term_fresh (h0 : 0 ≤ d) {P : Assoc ℚ} {S E : ℚ} : ∀ {T : Tr}, Spec.IsTerm T → Fresh P S E T → UpTree d T := by
  have hz : ∀ {s : St}, FreshSt S E s → Upto d s.z := fun h => by
    rw [h.2.2.1]; exact ⟨h0, by simp [Signal.empty]⟩
  intro T
  induction T with
  | sig | const => exact fun _ h => hz h.1
  | abs _ _ ih => exact fun ht h => ⟨hz h.1, ih ht h.2⟩
  | plus _ _ _ i1 i2 | minus _ _ _ i1 i2 | mult _ _ _ i1 i2 =>
    exact fun ht h => ⟨hz h.1, i1 ht.1 h.2.1, i2 ht.2 h.2.2⟩
  | _ => exact fun ht => ht.elim

theorem timeless_fresh (h0 : 0 ≤ d) {P : Assoc ℚ} {S E : ℚ} : ∀ {T : Tr}, Spec.IsTimeless T → Fresh P S E T →
    UpTree d T := by
  have hz : ∀ {s : St}, FreshSt S E s → s.z.endTime ≤ d := fun h => by rw [h.2.2.1]; exact h0
  intro T
  induction T with
  | atom => exact fun ht h => ⟨hz h.1, term_fresh h0 ht.1 h.2.1, term_fresh h0 ht.2 h.2.2⟩
  | not _ _ ih => exact fun ht h => ⟨hz h.1, ih ht h.2⟩
  | and _ _ _ i1 i2 | or _ _ _ i1 i2 | implies _ _ _ i1 i2 =>
    exact fun ht h => ⟨hz h.1, i1 ht.1 h.2.1, i2 ht.2 h.2.2⟩
  | _ => exact fun ht => ht.elim

end

theorem term_prepare (P : Assoc ℚ) (S E : ℚ) : ∀ {T : Tr}, Spec.IsTerm T → Spec.IsTerm (Monitor.prepare P S E T) := by
  intro T
  induction T with
  | sig | const => exact id
  | abs _ _ ih => exact ih
  | plus _ _ _ i1 i2 | minus _ _ _ i1 i2 | mult _ _ _ i1 i2 => exact fun h => ⟨i1 h.1, i2 h.2⟩
  | _ => exact fun ht => ht.elim

theorem timeless_prepare (P : Assoc ℚ) (S E : ℚ) : ∀ {T : Tr}, Spec.IsTimeless T →
    Spec.IsTimeless (Monitor.prepare P S E T) := by
  intro T
  induction T with
  | atom => exact fun h => ⟨term_prepare P S E h.1, term_prepare P S E h.2⟩
  | not _ _ ih => exact ih
  | and _ _ _ i1 i2 | or _ _ _ i1 i2 | implies _ _ _ i1 i2 => exact fun h => ⟨i1 h.1, i2 h.2⟩
  | _ => exact fun ht => ht.elim

theorem timeless_reach (P : Assoc ℚ) : ∀ {T : Tr}, Spec.IsTimeless T → Spec.reach P T = 0 := by
  intro T
  induction T with
  | atom => exact fun _ => rfl
  | not _ _ ih => exact ih
  | and _ _ _ i1 i2 | or _ _ _ i1 i2 | implies _ _ _ i1 i2 =>
    exact fun h => by simp [Spec.reach, i1 h.1, i2 h.2]
  | _ => exact fun ht => ht.elim

theorem timeless_joined : ∀ {T : Tr} (i : Bool), Spec.IsTimeless T → Spec.Joined i T := by
  intro T
  induction T with
  | atom => exact fun _ _ => trivial
  | not _ _ ih => exact fun i h => ih i h
  | and _ _ _ i1 i2 | or _ _ _ i1 i2 | implies _ _ _ i1 i2 => exact fun i h => ⟨i1 i h.1, i2 i h.2⟩
  | _ => exact fun _ ht => ht.elim

theorem single_joined {T : Tr} (h : Spec.IsSingle T) : Spec.Joined false T := by
  cases T with
  | ev | alw => exact ⟨timeless_joined _ h, by simp⟩
  | _ => exact timeless_joined (T := _) _ h

/-- Resizing leaves a signal with the end asked for, the new beginning, or none. -/
theorem resize_ends {z z' : Signal} {s t v : ℚ} (h : Signal.resize z s t v = .ok z') :
    z'.endTime = 0 ∨ z'.endTime = if t < s then s else t := by
  unfold Signal.resize at h
  split at h
  · cases h; exact .inl rfl
  · obtain ⟨x, _, h⟩ := bind_eq_ok.1 h
    unfold resizeBack at h
    obtain ⟨l, _, h⟩ := bind_eq_ok.1 h
    cases h
    exact .inr rfl

/-- After an evaluation of a formula with one temporal operator, the time up to which it says to be complete plus
its reach does not exceed the time of the last row. -/
theorem single_complete {env : Env} (h0 : 0 ≤ d) (hs : env.sem = .SPACE) (hr : ∀ row ∈ env.data, rowTime row ≤ d)
    {T T' : Tr} {n : ℕ} {s e : ℚ} {r : ℚ × ℚ × ℚ} (hF : Spec.IsFormula n env.params T) (hT : Spec.IsSingle T)
    (h : Monitor.run3 env (Monitor.prepare env.params s e T) = .ok (T', r)) (he : e ≤ T'.endComplete env.params) :
    e + Spec.reach env.params T ≤ d := by
  have hf := fresh_prepare env.params T s e
  obtain ⟨⟨T1, r1⟩, h1, h⟩ := bind_eq_ok.1 h
  obtain ⟨⟨T2, r2⟩, h2, h⟩ := bind_eq_ok.1 h
  obtain ⟨⟨T3, r3⟩, h3, h⟩ := bind_eq_ok.1 h
  cases h
  have flat : Spec.IsTimeless T → e + Spec.reach env.params T ≤ d := by
    intro ht
    obtain ⟨u1, t1⟩ := timeless_upto h0 hs hr (timeless_prepare env.params s e ht)
      (timeless_fresh h0 (timeless_prepare env.params s e ht) hf) h1
    obtain ⟨u2, t2⟩ := (bounds_upto h0 hs hr t1 u1).1 h2
    obtain ⟨u3, t3⟩ := (bounds_upto h0 hs hr t2 u2).2 h3
    rw [timeless_reach _ ht, add_zero]
    refine he.trans ?_
    have : T'.endComplete env.params = T'.st.z.endTime := by cases T' <;> first | exact t3.elim | rfl
    rw [this]
    exact u3.st
  cases T with
  | ev st I c =>
    have ht : Spec.IsTimeless c := hT
    have hq := timeless_prepare env.params (s + Tr.ivA env.params I) (e + Tr.ivB env.params I) ht
    have hg : Fresh env.params (s + Tr.ivA env.params I) (e + Tr.ivB env.params I)
      (Monitor.prepare env.params (s + Tr.ivA env.params I) (e + Tr.ivB env.params I) c) := fresh_prepare _ _ _ _
    obtain ⟨⟨c1, x1⟩, k1, h1⟩ := bind_eq_ok.1 h1
    obtain ⟨⟨z, zc⟩, k2, h1⟩ := bind_eq_ok.1 h1
    obtain ⟨p, k3, h1⟩ := bind_eq_ok.1 h1
    cases h1
    obtain ⟨⟨c2, x2⟩, k4, h2⟩ := bind_eq_ok.1 h2
    obtain ⟨⟨z2, y2⟩, k5, h2⟩ := bind_eq_ok.1 h2
    cases h2
    obtain ⟨⟨c3, x3⟩, k6, h3⟩ := bind_eq_ok.1 h3
    obtain ⟨⟨z3, y3⟩, k7, h3⟩ := bind_eq_ok.1 h3
    cases h3
    obtain ⟨u1, t1⟩ := timeless_upto h0 hs hr hq (timeless_fresh h0 hq hg) k1
    obtain ⟨y, l1, k2⟩ := bind_eq_ok.1 k2
    obtain ⟨zc', l2, k2⟩ := bind_eq_ok.1 k2
    obtain ⟨z', l3, k2⟩ := bind_eq_ok.1 k2
    cases k2
    have hA := hF.1
    have hB := hF.2.1
    rw [← ivA_eq] at hA
    rw [← ivA_eq, ← ivB_eq] at hB
    have hz : y.endTime ≤ d ∨ 0 < Tr.ivB env.params I := by
      by_contra hh
      push Not at hh
      have hb : Tr.ivB env.params I = 0 := le_antisymm hh.2 (hA.trans hB)
      have ha : Tr.ivA env.params I = 0 := le_antisymm (hB.trans hh.2) hA
      unfold Signal.computeTimedEventually at l1
      split at l1
      · cases l1
        have : (Monitor.prepare env.params s e (.ev st I c)).st.z = .empty := hf.1.2.2.1
        exact absurd hh.1 (not_lt.2 h0)
      · simp only [ha, hb, lt_irrefl, if_false, sub_self, le_refl, if_true, Except.ok.injEq] at l1
        rw [← l1] at hh
        exact absurd hh.1 (not_lt.2 u1.st)
    have hm : min y.endTime e ≤ e := min_le_right _ _
    obtain ⟨d', hd, hd', hc⟩ : ∃ d', d ≤ d' ∧ zc.endTime ≤ d' ∧ (d' = d ∨ d' = min y.endTime e - Tr.ivB env.params I) := by
      rcases resize_ends l2 with q | q
      · exact ⟨d, le_rfl, q ▸ h0, .inl rfl⟩
      · split at q
        · rcases le_total d zc.endTime with w | w
          · exact ⟨_, w, le_rfl, .inr q⟩
          · exact ⟨d, le_rfl, w, .inl rfl⟩
        · exact ⟨d, le_rfl, q ▸ u1.st, .inl rfl⟩
    have hr' : ∀ row ∈ env.data, rowTime row ≤ d' := fun row h => (hr row h).trans hd
    have t1' : Spec.IsTimeless (Tr.setZ zc c1) := by cases c1 <;> first | exact t1.elim | exact t1
    obtain ⟨u2, t2⟩ := (bounds_upto (h0.trans hd) hs hr' t1' ((u1.mono hd).setZ t1 hd')).1 k4
    obtain ⟨u3, t3⟩ := (bounds_upto (h0.trans hd) hs hr' t2 u2).2 k6
    have he : e ≤ c3.st.z.endTime - Tr.ivB env.params I := he
    have := u3.st
    show e + (Spec.bound env.params I.stopStr I.stop + Spec.reach env.params c) ≤ d
    rw [timeless_reach _ ht, ← ivB_eq]
    rcases hc with q | q
    · linarith
    · rcases hz with w | w
      · have := min_le_left y.endTime e
        linarith
      · linarith
  | alw st I c =>
    have ht : Spec.IsTimeless c := hT
    have hq := timeless_prepare env.params (s + Tr.ivA env.params I) (e + Tr.ivB env.params I) ht
    have hg : Fresh env.params (s + Tr.ivA env.params I) (e + Tr.ivB env.params I)
      (Monitor.prepare env.params (s + Tr.ivA env.params I) (e + Tr.ivB env.params I) c) := fresh_prepare _ _ _ _
    obtain ⟨⟨c1, x1⟩, k1, h1⟩ := bind_eq_ok.1 h1
    obtain ⟨z, k2, h1⟩ := bind_eq_ok.1 h1
    obtain ⟨p, k3, h1⟩ := bind_eq_ok.1 h1
    cases h1
    obtain ⟨⟨c2, x2⟩, k4, h2⟩ := bind_eq_ok.1 h2
    obtain ⟨⟨z2, y2⟩, k5, h2⟩ := bind_eq_ok.1 h2
    cases h2
    obtain ⟨⟨c3, x3⟩, k6, h3⟩ := bind_eq_ok.1 h3
    obtain ⟨⟨z3, y3⟩, k7, h3⟩ := bind_eq_ok.1 h3
    cases h3
    obtain ⟨u1, t1⟩ := timeless_upto h0 hs hr hq (timeless_fresh h0 hq hg) k1
    obtain ⟨u2, t2⟩ := (bounds_upto h0 hs hr t1 u1).1 k4
    obtain ⟨u3, t3⟩ := (bounds_upto h0 hs hr t2 u2).2 k6
    have he : e ≤ c3.st.z.endTime - Tr.ivB env.params I := he
    have := u3.st
    show e + (Spec.bound env.params I.stopStr I.stop + Spec.reach env.params c) ≤ d
    rw [timeless_reach _ ht, ← ivB_eq]
    linarith
  | _ => exact flat hT

/-- Atoms that stay within `±B` as far as the rows go do so wherever rows that cover the horizon are read. -/
theorem within_covered {ip : Interpol} {B : ℚ} {D : List (List ℚ)} {P : Assoc ℚ} {n : ℕ} : ∀ {T : Tr} {s e : ℚ},
    Spec.IsFormula n P T → e + Spec.reach P T ≤ Spec.lastTime D → Spec.AtomsWithinTo ip B D P s e T →
    Spec.AtomsWithin ip B D P s e T := by
  intro T
  induction T with
  | atom => exact fun _ hr h t h1 h2 => h t h1 h2 (h2.trans (by simpa [Spec.reach] using hr))
  | not _ _ ih => exact fun hF hr h => ih hF hr h
  | and _ l r i1 i2 | or _ l r i1 i2 | implies _ l r i1 i2 =>
    intro s e hF hr h
    exact ⟨i1 hF.1 ((add_le_add le_rfl (le_max_left _ _)).trans hr) h.1,
      i2 hF.2 ((add_le_add le_rfl (le_max_right _ _)).trans hr) h.2⟩
  | ev _ I c ih | alw _ I c ih =>
    intro s e hF hr h
    exact ih hF.2.2 (by simpa [Spec.reach, add_assoc] using hr) h
  | _ => intro s e hF; exact hF.elim

/-- Rows that are incomplete in general, but not for this formula. -/
theorem begun_ready {ip : Interpol} {n : ℕ} {B : ℚ} {m : Monitor} {T : Tr} {s e : ℚ} (h : Spec.Begun ip n B m T s e)
    (hr : e + Spec.reach m.params T ≤ Spec.lastTime m.data) : Spec.Ready ip n B m T s e := by
  obtain ⟨row, t, h1, h2, h3⟩ := h.first
  have hne : m.data ≠ [] := by rintro q; rw [q] at h1; simp at h1
  obtain ⟨last, h4, h5⟩ := lastTime_eq hne h.rows
  exact ⟨h.formula, h.sem, h.interpol, h.names, h.rows, h.shape, within_covered h.shape hr h.within, h.start, h.stop,
    ⟨row, t, h1, h2, h3⟩, ⟨last, _, h4, h5, hr⟩⟩

/-- The bounds on the atoms carry over to rows that agree up to the horizon. -/
theorem within_more {ip : Interpol} {B K : ℚ} {D D' : List (List ℚ)} {P : Assoc ℚ} {n : ℕ}
    (hs : ∀ i t, t ≤ K → Spec.trace ip D i t = Spec.trace ip D' i t) : ∀ {T : Tr} {s e : ℚ}, Spec.IsFormula n P T →
    e + Spec.reach P T ≤ K → Spec.AtomsWithin ip B D P s e T → Spec.AtomsWithin ip B D' P s e T := by
  intro T
  induction T with
  | atom _ _ l r =>
    intro s e _ hr h t h1 h2
    have ht : t ≤ K := h2.trans (by simpa [Spec.reach] using hr)
    rw [← expr_upto hs ht, ← expr_upto hs ht]
    exact h t h1 h2
  | not _ _ ih => exact fun hF hr h => ih hF hr h
  | and _ l r i1 i2 | or _ l r i1 i2 | implies _ l r i1 i2 =>
    intro s e hF hr h
    exact ⟨i1 hF.1 ((add_le_add le_rfl (le_max_left _ _)).trans hr) h.1,
      i2 hF.2 ((add_le_add le_rfl (le_max_right _ _)).trans hr) h.2⟩
  | ev _ I c ih | alw _ I c ih =>
    intro s e hF hr h
    exact ih hF.2.2 (by simpa [Spec.reach, add_assoc] using hr) h
  | _ => intro s e hF; exact hF.elim

end
end STLRom
