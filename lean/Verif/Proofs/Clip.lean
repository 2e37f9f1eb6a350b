import Verif.Proofs.Partial

/-!
# The end of the horizon does not matter to an atom once it lies after the last row
-/

namespace STLRom
open Signal Spec

/-- The same expression or atom with another end of its horizon. -/
def clip (e : ℚ) : Tr → Tr
  | .sig s v m td => .sig { s with stop := e } v m td
  | .const s p v td => .const { s with stop := e } p v td
  | .abs s c => .abs { s with stop := e } (clip e c)
  | .plus s l r => .plus { s with stop := e } (clip e l) (clip e r)
  | .minus s l r => .minus { s with stop := e } (clip e l) (clip e r)
  | .mult s l r => .mult { s with stop := e } (clip e l) (clip e r)
  | .atom s k l r => .atom { s with stop := e } k (clip e l) (clip e r)
  | T => T

/-- The horizon of every leaf ends at `e`, or both end after `d`. -/
def Stops (d e : ℚ) : Tr → Prop
  | .sig s _ _ _ | .const s _ _ _ => s.stop = e ∨ d ≤ e ∧ d ≤ s.stop
  | .abs _ c => Stops d e c
  | .plus _ l r | .minus _ l r | .mult _ l r | .atom _ _ l r => Stops d e l ∧ Stops d e r
  | _ => True

theorem clip_z (e : ℚ) (T : Tr) : (clip e T).st.z = T.st.z := by cases T <;> rfl
theorem clip_zlow (e : ℚ) (T : Tr) : (clip e T).st.zlow = T.st.zlow := by cases T <;> rfl
theorem clip_zup (e : ℚ) (T : Tr) : (clip e T).st.zup = T.st.zup := by cases T <;> rfl

theorem clip_forget (e : ℚ) (T : Tr) : (clip e T).forgetB false = T.forgetB false := by
  induction T <;> simp_all [clip, Tr.forgetB]

theorem cell0 {row : List ℚ} {t : ℚ} (h : Tr.cell row 0 = .ok t) : rowTime row = t := by
  unfold Tr.cell at h
  cases row with
  | nil => simp at h
  | cons a l => simpa [rowTime] using h

theorem sigRead_stop (ip : Interpol) (i : ℕ) {s1 s2 d : ℚ} (h1 : d ≤ s1) (h2 : d ≤ s2) :
    ∀ (rows : List (List ℚ)) (z : Signal) (td : ℕ) (t v : ℚ), (∀ row ∈ rows, rowTime row ≤ d) → t ≤ d →
      Tr.sigRead ip i s1 rows z td t v = Tr.sigRead ip i s2 rows z td t v ∧
      ∀ x, Tr.sigRead ip i s1 rows z td t v = .ok x → x.2.2.1 ≤ d
  | [], z, td, t, v, _, ht => ⟨rfl, fun x hx => by
      simp only [Tr.sigRead, Except.ok.injEq] at hx; rw [← hx]; exact ht⟩
  | row :: rows, z, td, t, v, hr, ht => by
    have ih := fun z' td' v' => sigRead_stop ip i h1 h2 rows z' td' (rowTime row) v'
      (fun r hm => hr r (by simp [hm])) (hr row (by simp))
    simp only [Tr.sigRead, if_pos (ht.trans h1), if_pos (ht.trans h2)]
    cases hc : Tr.cell row 0 with
    | error => exact ⟨rfl, fun x hx => by cases hx⟩
    | ok t' =>
      obtain rfl := cell0 hc
      simp only [bind, Except.bind]
      cases Tr.cell row i with
      | error => exact ⟨rfl, fun x hx => by cases hx⟩
      | ok v' =>
        simp only
        cases z.appendSample0 ip (rowTime row) v' with
        | error => exact ⟨rfl, fun x hx => by cases hx⟩
        | ok z' => exact ih z' _ v'

theorem constRead_stop (ip : Interpol) (c : ℚ) {s1 s2 d : ℚ} (h1 : d ≤ s1) (h2 : d ≤ s2) :
    ∀ (rows : List (List ℚ)) (z : Signal) (td : ℕ) (t : ℚ), (∀ row ∈ rows, rowTime row ≤ d) → t ≤ d →
      Tr.constRead ip c s1 rows z td t = Tr.constRead ip c s2 rows z td t ∧
      ∀ x, Tr.constRead ip c s1 rows z td t = .ok x → x.2.2 ≤ d
  | [], z, td, t, _, ht => ⟨rfl, fun x hx => by
      simp only [Tr.constRead, Except.ok.injEq] at hx; rw [← hx]; exact ht⟩
  | row :: rows, z, td, t, hr, ht => by
    have ih := fun z' td' => constRead_stop ip c h1 h2 rows z' td' (rowTime row)
      (fun r hm => hr r (by simp [hm])) (hr row (by simp))
    simp only [Tr.constRead, if_pos (ht.trans h1), if_pos (ht.trans h2)]
    cases hc : Tr.cell row 0 with
    | error => exact ⟨rfl, fun x hx => by cases hx⟩
    | ok t' =>
      obtain rfl := cell0 hc
      simp only [bind, Except.bind]
      cases z.appendSample0 ip (rowTime row) c with
      | error => exact ⟨rfl, fun x hx => by cases hx⟩
      | ok z' => exact ih z' _

theorem leafTrim_stop {s1 s2 d t : ℚ} (h1 : d ≤ s1) (h2 : d ≤ s2) (ht : t ≤ d) (S : ℚ) (z : Signal) (v : ℚ) :
    Tr.leafTrim S s1 z t v = Tr.leafTrim S s2 z t v := by
  unfold Tr.leafTrim
  rw [if_neg (not_lt.2 (ht.trans h1)), if_neg (not_lt.2 (ht.trans h2))]

section
variable {env : Env} {d e : ℚ}

theorem sigRob_stop (hD : ∀ row ∈ env.data, rowTime row ≤ d) (h0 : 0 ≤ d) (s : St) (v : String) (m : Assoc ℕ)
    (td : Option ℕ) (hs : s.stop = e ∨ d ≤ e ∧ d ≤ s.stop) :
    Tr.sigRob env { s with stop := e } v m td = Tr.sigRob env s v m td := by
  rcases hs with rfl | ⟨h1, h2⟩
  · rfl
  · unfold Tr.sigRob
    cases (m.lookup v).getD 0 with
    | zero => simp only [leafTrim_stop h1 h2 h0]
    | succ i =>
      cases td with
      | none => rfl
      | some td =>
        simp only [h0.trans h1, h0.trans h2, and_true]
        obtain ⟨k1, k2⟩ := sigRead_stop env.ip (i + 1) h1 h2 (env.data.drop td) s.z td 0 0
          (fun r hr => hD r (List.mem_of_mem_drop hr)) h0
        rw [k1] at k2 ⊢
        cases hx : Tr.sigRead env.ip (i + 1) s.stop (env.data.drop td) s.z td 0 0 with
        | error => rfl
        | ok x =>
          have := k2 x hx
          obtain ⟨z, td', t, w⟩ := x
          simp only [bind, Except.bind, leafTrim_stop h1 h2 this]

theorem constRob_stop (hD : ∀ row ∈ env.data, rowTime row ≤ d) (h0 : 0 ≤ d) (s : St) (c : ℚ)
    (td : Option ℕ) (hs : s.stop = e ∨ d ≤ e ∧ d ≤ s.stop) :
    Tr.constRob env { s with stop := e } c td = Tr.constRob env s c td := by
  rcases hs with rfl | ⟨h1, h2⟩
  · rfl
  · unfold Tr.constRob
    cases td with
    | none => rfl
    | some td =>
      simp only [h0.trans h1, h0.trans h2, and_true]
      obtain ⟨k1, k2⟩ := constRead_stop env.ip c h1 h2 (env.data.drop td) s.z td 0
        (fun r hr => hD r (List.mem_of_mem_drop hr)) h0
      rw [k1] at k2 ⊢
      cases hx : Tr.constRead env.ip c s.stop (env.data.drop td) s.z td 0 with
      | error => rfl
      | ok x =>
        have := k2 x hx
        obtain ⟨z, td', t⟩ := x
        simp only [bind, Except.bind, leafTrim_stop h1 h2 this]

/-- Running the clipped expression or atom is the same. -/
theorem clip_rob (hD : ∀ row ∈ env.data, rowTime row ≤ d) (h0 : 0 ≤ d) (T : Tr) (hT : IsTerm T ∨ IsAtom T)
    (ht : ∀ s k l r, T = .atom s k l r → IsTerm l ∧ IsTerm r) (hs : Stops d e T) :
    Tr.computeRob env (clip e T) = (Tr.computeRob env T).map fun x => (clip e x.1, x.2) := by
  induction T with
  | sig s v m td =>
    simp only [clip, Tr.computeRob, sigRob_stop hD h0 s v m td hs]
    cases Tr.sigRob env s v m td <;> rfl
  | const s p v td =>
    simp only [clip, Tr.computeRob, constRob_stop hD h0 s _ td hs]
    cases Tr.constRob env s (Tr.constValue env.params p v) td <;> rfl
  | abs s c ih =>
    have hc : IsTerm c := hT.resolve_right id
    have ih := ih (Or.inl hc) (by rintro _ _ _ _ rfl; exact hc.elim) hs
    simp only [clip, Tr.computeRob, ih]
    cases Tr.computeRob env c with
    | error => rfl
    | ok x =>
      simp only [Except.map, bind, Except.bind, clip_z]
      cases Tr.absLoop env.ip s.z x.1.st.z.samples with
      | error => rfl
      | ok z =>
        simp only
        cases z.front <;> rfl
  | plus s l r ih1 ih2 =>
    have hc : IsTerm l ∧ IsTerm r := hT.resolve_right id
    have ih1 := ih1 (Or.inl hc.1) (by rintro _ _ _ _ rfl; exact hc.1.elim) hs.1
    have ih2 := ih2 (Or.inl hc.2) (by rintro _ _ _ _ rfl; exact hc.2.elim) hs.2
    simp only [clip, Tr.computeRob, ih1, ih2]
    cases Tr.computeRob env l with
    | error => rfl
    | ok x =>
      simp only [Except.map, bind, Except.bind, clip_z]
      cases Tr.computeRob env r with
      | error => rfl
      | ok y =>
        simp only [clip_z]
        cases Tr.binLoop env.ip (· + ·) s.z x.1.st.z.samples y.1.st.z.samples with
        | error => rfl
        | ok z =>
          simp only
          cases z.front <;> rfl
  | minus s l r ih1 ih2 =>
    have hc : IsTerm l ∧ IsTerm r := hT.resolve_right id
    have ih1 := ih1 (Or.inl hc.1) (by rintro _ _ _ _ rfl; exact hc.1.elim) hs.1
    have ih2 := ih2 (Or.inl hc.2) (by rintro _ _ _ _ rfl; exact hc.2.elim) hs.2
    simp only [clip, Tr.computeRob, ih1, ih2]
    cases Tr.computeRob env l with
    | error => rfl
    | ok x =>
      simp only [Except.map, bind, Except.bind, clip_z]
      cases Tr.computeRob env r with
      | error => rfl
      | ok y =>
        simp only [clip_z]
        cases Tr.binLoop env.ip (· - ·) s.z x.1.st.z.samples y.1.st.z.samples with
        | error => rfl
        | ok z =>
          simp only
          cases z.front <;> rfl
  | mult s l r ih1 ih2 =>
    have hc : IsTerm l ∧ IsTerm r := hT.resolve_right id
    have ih1 := ih1 (Or.inl hc.1) (by rintro _ _ _ _ rfl; exact hc.1.elim) hs.1
    have ih2 := ih2 (Or.inl hc.2) (by rintro _ _ _ _ rfl; exact hc.2.elim) hs.2
    simp only [clip, Tr.computeRob, ih1, ih2]
    cases Tr.computeRob env l with
    | error => rfl
    | ok x =>
      simp only [Except.map, bind, Except.bind, clip_z]
      cases Tr.computeRob env r with
      | error => rfl
      | ok y =>
        simp only [clip_z]
        cases Tr.binLoop env.ip (· * ·) s.z x.1.st.z.samples y.1.st.z.samples with
        | error => rfl
        | ok z =>
          simp only
          cases z.front <;> rfl
  | atom s k l r ih1 ih2 =>
    have hc := ht s k l r rfl
    have ih1 := ih1 (Or.inl hc.1) (by rintro _ _ _ _ rfl; exact hc.1.elim) hs.1
    have ih2 := ih2 (Or.inl hc.2) (by rintro _ _ _ _ rfl; exact hc.2.elim) hs.2
    simp only [clip, Tr.computeRob, ih1, ih2]
    cases Tr.computeRob env l with
    | error => rfl
    | ok x =>
      simp only [Except.map, bind, Except.bind, clip_z]
      cases Tr.computeRob env r with
      | error => rfl
      | ok y =>
        simp only [clip_z]
        cases Tr.atomRob env k s.z x.1.st.z y.1.st.z with
        | error => rfl
        | ok z =>
          simp only
          cases z.front <;> rfl
  | _ => exact (hT.elim id id).elim

theorem clip_bnd (hD : ∀ row ∈ env.data, rowTime row ≤ d) (h0 : 0 ≤ d) (b : Bool) (s : St) (k : Cmp) (l r : Tr)
    (ht : IsTerm l ∧ IsTerm r) (hs : Stops d e (.atom s k l r)) :
    bnd env b (clip e (.atom s k l r)) = (bnd env b (.atom s k l r)).map fun x => (clip e x.1, x.2) := by
  have h := clip_rob hD h0 (.atom s k l r) (Or.inr trivial)
    (by intro s' k' l' r' h; cases h; exact ht) hs
  have hat : ∀ x, Tr.computeRob env (.atom s k l r) = .ok x →
      ∃ z l' r', x.1 = .atom { s with z := z } k l' r' := by
    intro x hx
    simp only [Tr.computeRob] at hx
    obtain ⟨⟨l', _⟩, _, hx⟩ := bind_eq_ok.1 hx
    obtain ⟨⟨r', _⟩, _, hx⟩ := bind_eq_ok.1 hx
    obtain ⟨z, _, hx⟩ := bind_eq_ok.1 hx
    obtain ⟨p, _, hx⟩ := bind_eq_ok.1 hx
    obtain rfl := Except.ok.inj hx
    exact ⟨z, l', r', rfl⟩
  simp only [clip] at h
  unfold bnd
  cases b
  · simp only [clip, Bool.false_eq_true, if_false, Tr.computeUp, h]
    cases hx : Tr.computeRob env (.atom s k l r) with
    | error => rfl
    | ok x =>
      obtain ⟨T', v⟩ := x
      obtain ⟨z, l', r', hx⟩ := hat _ hx
      simp only at hx
      subst hx
      simp only [Except.map, bind, Except.bind, clip, Tr.st]
      have : Tr.defaultUp env { s with z := z, stop := e } = Tr.defaultUp env { s with z := z } := rfl
      rw [this]
      cases Tr.defaultUp env { s with z := z } with
      | error => rfl
      | ok w =>
        simp only
        cases w.front <;> rfl
  · simp only [clip, if_true, Tr.computeLow, h]
    cases hx : Tr.computeRob env (.atom s k l r) with
    | error => rfl
    | ok x =>
      obtain ⟨T', v⟩ := x
      obtain ⟨z, l', r', hx⟩ := hat _ hx
      simp only at hx
      subst hx
      simp only [Except.map, bind, Except.bind, clip, Tr.st]
      have : Tr.defaultLow env { s with z := z, stop := e } = Tr.defaultLow env { s with z := z } := rfl
      rw [this]
      cases Tr.defaultLow env { s with z := z } with
      | error => rfl
      | ok w =>
        simp only
        cases w.front <;> rfl

end

theorem fresh_clip {P : Assoc ℚ} {S E e : ℚ} : ∀ {T : Tr}, IsTerm T → Fresh P S E T → Fresh P S e (clip e T) := by
  intro T
  induction T with
  | sig | const => exact fun _ h => ⟨⟨h.1.1, rfl, h.1.2.2⟩, h.2⟩
  | abs _ c ih => exact fun h h' => ⟨⟨h'.1.1, rfl, h'.1.2.2⟩, ih h h'.2⟩
  | plus _ l r h1 h2 | minus _ l r h1 h2 | mult _ l r h1 h2 =>
    exact fun h h' => ⟨⟨h'.1.1, rfl, h'.1.2.2⟩, h1 h.1 h'.2.1, h2 h.2 h'.2.2⟩
  | _ => exact fun h => h.elim

theorem stops_of_fresh {P : Assoc ℚ} {S E d : ℚ} : ∀ {T : Tr}, IsTerm T → Fresh P S E T →
    Stops d (min E d) T := by
  have key : ∀ {s : St}, FreshSt S E s → s.stop = min E d ∨ d ≤ min E d ∧ d ≤ s.stop := by
    intro s h
    rw [h.2.1]
    rcases le_total E d with h | h
    · exact Or.inl (min_eq_left h).symm
    · exact Or.inr ⟨le_min h le_rfl, h⟩
  intro T
  induction T with
  | sig | const => exact fun _ h => key h.1
  | abs _ c ih => exact fun h h' => ih h h'.2
  | plus _ l r h1 h2 | minus _ l r h1 h2 | mult _ l r h1 h2 =>
    exact fun h h' => ⟨h1 h.1 h'.2.1, h2 h.2 h'.2.2⟩
  | _ => exact fun h => h.elim

theorem stops_of_tot {D : List (List ℚ)} {S E d : ℚ} : ∀ {T : Tr}, ETot D S E T →
    Stops d (min E d) T := by
  have key : ∀ {s : St}, s.stop = E → s.stop = min E d ∨ d ≤ min E d ∧ d ≤ s.stop := by
    intro s h
    rw [h]
    rcases le_total E d with h | h
    · exact Or.inl (min_eq_left h).symm
    · exact Or.inr ⟨le_min h le_rfl, h⟩
  intro T
  induction T with
  | sig | const => exact fun h => key h.2.1
  | abs _ c ih => exact fun h => ih h.2
  | plus _ l r h1 h2 | minus _ l r h1 h2 | mult _ l r h1 h2 =>
    exact fun h => ⟨h1 h.2.1, h2 h.2.2⟩
  | _ => exact fun h => h.elim

end STLRom
