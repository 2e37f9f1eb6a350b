import Verif.Proofs.Steady

/-!
# The lower and the upper bound do not disturb each other

`compute_lower_rob` and `compute_upper_rob` may be called in either order: each one leaves
alone what the other one reads, apart from running the atoms again, which does not change the
signals of the atoms any more.
-/

namespace STLRom
open Signal Spec

/-- The signal of the lower (`true`) or upper (`false`) bound. -/
def pick (b : Bool) (s : St) : Signal := if b then s.zlow else s.zup

/-- `compute_lower_rob` or `compute_upper_rob`. -/
def bnd (env : Env) (b : Bool) (T : Tr) : M (Tr × ℚ) :=
  if b then T.computeLow env else T.computeUp env

/-- What the caller of `bnd` reads. -/
def seen (b : Bool) (x : Tr × ℚ) : Signal × ℚ := (pick b x.1.st, x.2)

/-- A formula whose expressions have been run. -/
def Settled (n : ℕ) (D : List (List ℚ)) : Tr → Prop
  | .atom s _ l r => AtomZ l.st.z s.z ∧ EInv n D l ∧ EInv n D r
  | .not _ c | .ev _ _ c | .alw _ _ c => Settled n D c
  | .and _ l r | .or _ l r | .implies _ l r | .untl _ l _ r => Settled n D l ∧ Settled n D r
  | _ => False

/-- Nodes that agree on what `bnd b` reads. -/
def SameSt (b : Bool) (s s' : St) : Prop :=
  s.start = s'.start ∧ s.stop = s'.stop ∧ pick b s = pick b s'

/-- Trees that agree on what `bnd b` reads. -/
inductive Alike (env : Env) (D' : List (List ℚ)) : Bool → Tr → Tr → Prop
  | atom {b s s' k l r l' r'} : SameSt b s s' →
      (Tr.computeRob env (.atom s k l r)).map (·.1.st.z) =
        (Tr.computeRob { env with data := D' } (.atom s' k l' r')).map (·.1.st.z) →
      Alike env D' b (.atom s k l r) (.atom s' k l' r')
  | not {b s s' c c'} : SameSt b s s' → Alike env D' (!b) c c' → Alike env D' b (.not s c) (.not s' c')
  | and {b s s' l r l' r'} : SameSt b s s' → Alike env D' b l l' → Alike env D' b r r' →
      Alike env D' b (.and s l r) (.and s' l' r')
  | or {b s s' l r l' r'} : SameSt b s s' → Alike env D' b l l' → Alike env D' b r r' →
      Alike env D' b (.or s l r) (.or s' l' r')
  | implies {b s s' l r l' r'} : SameSt b s s' → Alike env D' (!b) l l' → Alike env D' b r r' →
      Alike env D' b (.implies s l r) (.implies s' l' r')
  | ev {b s s' I c c'} : SameSt b s s' → Alike env D' b c c' → Alike env D' b (.ev s I c) (.ev s' I c')
  | alw {b s s' I c c'} : SameSt b s s' → Alike env D' b c c' → Alike env D' b (.alw s I c) (.alw s' I c')
  | untl {b s s' I l r l' r'} : SameSt b s s' → Alike env D' b l l' → Alike env D' b r r' →
      Alike env D' b (.untl s l I r) (.untl s' l' I r')

/-- The same over one trace. -/
abbrev Like (env : Env) : Bool → Tr → Tr → Prop := Alike env env.data

theorem SameSt.refl (b : Bool) (s : St) : SameSt b s s := ⟨rfl, rfl, rfl⟩

variable {env : Env} {n : ℕ}

theorem Like.refl {D : List (List ℚ)} : ∀ {T : Tr} (b : Bool), Settled n D T → Like env b T T := by
  intro T
  induction T with
  | atom s k l r => exact fun b _ => .atom (.refl _ _) rfl
  | not s c ih => exact fun b h => .not (.refl _ _) (ih _ h)
  | and s l r ih1 ih2 => exact fun b h => .and (.refl _ _) (ih1 _ h.1) (ih2 _ h.2)
  | or s l r ih1 ih2 => exact fun b h => .or (.refl _ _) (ih1 _ h.1) (ih2 _ h.2)
  | implies s l r ih1 ih2 => exact fun b h => .implies (.refl _ _) (ih1 _ h.1) (ih2 _ h.2)
  | ev s I c ih => exact fun b h => .ev (.refl _ _) (ih _ h)
  | alw s I c ih => exact fun b h => .alw (.refl _ _) (ih _ h)
  | untl s l I r ih1 ih2 => exact fun b h => .untl (.refl _ _) (ih1 _ h.1) (ih2 _ h.2)
  | _ => intro b h; exact h.elim

theorem map_cases {α β : Type} {f : α → β} {x y : M α} (h : x.map f = y.map f) :
    (∃ e, x = .error e ∧ y = .error e) ∨ ∃ a a', x = .ok a ∧ y = .ok a' ∧ f a = f a' := by
  cases x with
  | error e =>
    cases y with
    | error e' =>
      simp only [Except.map, Except.error.injEq] at h
      exact Or.inl ⟨e, rfl, by rw [h]⟩
    | ok a' => simp [Except.map] at h
  | ok a =>
    cases y with
    | error e' => simp [Except.map] at h
    | ok a' =>
      simp only [Except.map, Except.ok.injEq] at h
      exact Or.inr ⟨a, a', rfl, rfl, h⟩

theorem seen_cases {b : Bool} {x y : M (Tr × ℚ)} (h : x.map (seen b) = y.map (seen b)) :
    (∃ e, x = .error e ∧ y = .error e) ∨
      ∃ T T' v, x = .ok (T, v) ∧ y = .ok (T', v) ∧ pick b T.st = pick b T'.st := by
  rcases map_cases h with h | ⟨⟨T, v⟩, ⟨T', v'⟩, h1, h2, h3⟩
  · exact Or.inl h
  · simp only [seen, Prod.mk.injEq] at h3
    obtain ⟨h3, rfl⟩ := h3
    exact Or.inr ⟨T, T', v, h1, h2, h3⟩

theorem atom_shape {s : St} {k : Cmp} {l r T' : Tr} {x : ℚ}
    (h : Tr.computeRob env (.atom s k l r) = .ok (T', x)) :
    ∃ z l' r', T' = .atom { s with z := z } k l' r' := by
  simp only [Tr.computeRob] at h
  obtain ⟨⟨l', y⟩, _, h⟩ := bind_eq_ok.1 h
  obtain ⟨⟨r', y'⟩, _, h⟩ := bind_eq_ok.1 h
  obtain ⟨z, _, h⟩ := bind_eq_ok.1 h
  obtain ⟨p, _, h⟩ := bind_eq_ok.1 h
  simp only [Except.ok.injEq, Prod.mk.injEq] at h
  exact ⟨z, l', r', h.1.symm⟩

theorem ok_bind {α β : Type} (a : α) (f : α → M β) : ((Except.ok a : M α) >>= f) = f a := rfl

theorem error_bind {α β : Type} (e : Fault) (f : α → M β) :
    ((Except.error e : M α) >>= f) = .error e := rfl

theorem map_bind_congr {α β γ : Type} {f : β → γ} {F F' : α → M β} (x : M α)
    (h : ∀ a, (F a).map f = (F' a).map f) : (x >>= F).map f = (x >>= F').map f := by
  cases x with
  | error e => rfl
  | ok a => exact h a

theorem bnd_true (T : Tr) : bnd env true T = T.computeLow env := rfl
theorem bnd_false (T : Tr) : bnd env false T = T.computeUp env := rfl

/-- The bounds of trees that agree are the same. -/
theorem Alike.seen {D' : List (List ℚ)} {b : Bool} {T T' : Tr} (h : Alike env D' b T T') :
    (bnd env b T).map (seen b) = (bnd { env with data := D' } b T').map (STLRom.seen b) := by
  induction h with
  | @atom b s s' k l r l' r' hs hz =>
    obtain ⟨h1, h2, h3⟩ := hs
    rcases map_cases hz with ⟨e, e1, e2⟩ | ⟨⟨U, v⟩, ⟨U', v'⟩, e1, e2, e3⟩
    · cases b <;> simp only [bnd_true, bnd_false, Tr.computeLow, Tr.computeUp, e1, e2, error_bind]
    · obtain ⟨z, l1, r1, rfl⟩ := atom_shape e1
      obtain ⟨z', l1', r1', rfl⟩ := atom_shape e2
      obtain rfl : z = z' := e3
      cases b with
      | true =>
        have hd : Tr.defaultLow env { s with z := z } = Tr.defaultLow { env with data := D' } { s' with z := z } := by
          simp only [pick, if_true] at h3
          simp only [Tr.defaultLow, h1, h3]
        simp only [bnd_true, Tr.computeLow, e1, e2, ok_bind, Tr.st, hd]
        exact map_bind_congr _ fun z => map_bind_congr _ fun p => rfl
      | false =>
        have hd : Tr.defaultUp env { s with z := z } = Tr.defaultUp { env with data := D' } { s' with z := z } := by
          simp only [pick, Bool.false_eq_true, if_false] at h3
          simp only [Tr.defaultUp, h1, h3]
        simp only [bnd_false, Tr.computeUp, e1, e2, ok_bind, Tr.st, hd]
        exact map_bind_congr _ fun z => map_bind_congr _ fun p => rfl
  | @not b s s' c c' hs _ ih =>
    obtain ⟨h1, h2, h3⟩ := hs
    rcases seen_cases ih with ⟨e, e1, e2⟩ | ⟨U, U', v, e1, e2, e3⟩
    · cases b <;> simp only [Bool.not_true, Bool.not_false, bnd_true, bnd_false] at e1 e2 ⊢ <;>
        simp only [Tr.computeLow, Tr.computeUp, e1, e2, error_bind]
    cases b with
    | true =>
      simp only [pick, if_true, Bool.not_true, Bool.false_eq_true, if_false] at h3 e3
      simp only [Bool.not_true, bnd_true, bnd_false] at e1 e2 ⊢
      simp only [Tr.computeLow, e1, e2, ok_bind, e3, h1, h3]
      split_ifs
      · exact map_bind_congr _ fun z => rfl
      · exact map_bind_congr _ fun p => rfl
    | false =>
      simp only [pick, if_true, Bool.not_false, Bool.false_eq_true, if_false] at h3 e3
      simp only [Bool.not_false, bnd_true, bnd_false] at e1 e2 ⊢
      simp only [Tr.computeUp, e1, e2, ok_bind, e3, h1, h3]
      split_ifs
      · exact map_bind_congr _ fun z => rfl
      · exact map_bind_congr _ fun p => rfl
  | @and b s s' l r l' r' hs _ _ ih1 ih2 =>
    obtain ⟨h1, h2, h3⟩ := hs
    rcases seen_cases ih1 with ⟨e, e1, e2⟩ | ⟨U, U', v, e1, e2, e3⟩
    · cases b <;> simp only [bnd_true, bnd_false] at e1 e2 ⊢ <;>
        simp only [Tr.computeLow, Tr.computeUp, e1, e2, error_bind]
    rcases seen_cases ih2 with ⟨e, f1, f2⟩ | ⟨V, V', w, f1, f2, f3⟩
    · cases b <;> simp only [bnd_true, bnd_false] at e1 e2 f1 f2 ⊢ <;>
        simp only [Tr.computeLow, Tr.computeUp, e1, e2, f1, f2, ok_bind, error_bind]
    cases b with
    | true =>
      simp only [pick, if_true] at h3 e3 f3
      simp only [bnd_true] at e1 e2 f1 f2 ⊢
      have hd : Tr.andLow env s U'.st.zlow V'.st.zlow = Tr.andLow { env with data := D' } s' U'.st.zlow V'.st.zlow := by
        simp only [Tr.andLow, h1]
      simp only [Tr.computeLow, e1, e2, f1, f2, ok_bind, e3, f3, hd]
      exact map_bind_congr _ fun z => map_bind_congr _ fun p => rfl
    | false =>
      simp only [pick, Bool.false_eq_true, if_false] at h3 e3 f3
      simp only [bnd_false] at e1 e2 f1 f2 ⊢
      have hd : Tr.andUp env s U'.st.zup V'.st.zup = Tr.andUp { env with data := D' } s' U'.st.zup V'.st.zup := by
        simp only [Tr.andUp, h1]
      simp only [Tr.computeUp, e1, e2, f1, f2, ok_bind, e3, f3, hd]
      exact map_bind_congr _ fun z => map_bind_congr _ fun p => rfl
  | @or b s s' l r l' r' hs _ _ ih1 ih2 =>
    obtain ⟨h1, h2, h3⟩ := hs
    rcases seen_cases ih1 with ⟨e, e1, e2⟩ | ⟨U, U', v, e1, e2, e3⟩
    · cases b <;> simp only [bnd_true, bnd_false] at e1 e2 ⊢ <;>
        simp only [Tr.computeLow, Tr.computeUp, e1, e2, error_bind]
    rcases seen_cases ih2 with ⟨e, f1, f2⟩ | ⟨V, V', w, f1, f2, f3⟩
    · cases b <;> simp only [bnd_true, bnd_false] at e1 e2 f1 f2 ⊢ <;>
        simp only [Tr.computeLow, Tr.computeUp, e1, e2, f1, f2, ok_bind, error_bind]
    cases b with
    | true =>
      simp only [pick, if_true] at h3 e3 f3
      simp only [bnd_true] at e1 e2 f1 f2 ⊢
      have hd : Tr.orLow env s U'.st.zlow V'.st.zlow = Tr.orLow { env with data := D' } s' U'.st.zlow V'.st.zlow := by
        simp only [Tr.orLow, h1]
      simp only [Tr.computeLow, e1, e2, f1, f2, ok_bind, e3, f3, hd]
      exact map_bind_congr _ fun z => map_bind_congr _ fun p => rfl
    | false =>
      simp only [pick, Bool.false_eq_true, if_false] at h3 e3 f3
      simp only [bnd_false] at e1 e2 f1 f2 ⊢
      have hd : Tr.orUp env s U'.st.zup V'.st.zup = Tr.orUp { env with data := D' } s' U'.st.zup V'.st.zup := by
        simp only [Tr.orUp, h1]
      simp only [Tr.computeUp, e1, e2, f1, f2, ok_bind, e3, f3, hd]
      exact map_bind_congr _ fun z => map_bind_congr _ fun p => rfl
  | @implies b s s' l r l' r' hs _ _ ih1 ih2 =>
    obtain ⟨h1, h2, h3⟩ := hs
    rcases seen_cases ih1 with ⟨e, e1, e2⟩ | ⟨U, U', v, e1, e2, e3⟩
    · cases b <;> simp only [Bool.not_true, Bool.not_false, bnd_true, bnd_false] at e1 e2 ⊢ <;>
        simp only [Tr.computeLow, Tr.computeUp, e1, e2, error_bind]
    rcases seen_cases ih2 with ⟨e, f1, f2⟩ | ⟨V, V', w, f1, f2, f3⟩
    · cases b <;> simp only [Bool.not_true, Bool.not_false, bnd_true, bnd_false] at e1 e2 f1 f2 ⊢ <;>
        simp only [Tr.computeLow, Tr.computeUp, e1, e2, f1, f2, ok_bind, error_bind]
    cases b with
    | true =>
      simp only [pick, if_true, Bool.not_true, Bool.false_eq_true, if_false] at h3 e3 f3
      simp only [Bool.not_true, bnd_true, bnd_false] at e1 e2 f1 f2 ⊢
      have hd : Tr.impliesLow env s U'.st.zup V'.st.zlow =
          Tr.impliesLow { env with data := D' } s' U'.st.zup V'.st.zlow := by
        simp only [Tr.impliesLow, h1]
      simp only [Tr.computeLow, e1, e2, f1, f2, ok_bind, e3, f3, hd]
      exact map_bind_congr _ fun z => map_bind_congr _ fun p => rfl
    | false =>
      simp only [pick, if_true, Bool.not_false, Bool.false_eq_true, if_false] at h3 e3 f3
      simp only [Bool.not_false, bnd_true, bnd_false] at e1 e2 f1 f2 ⊢
      have hd : Tr.impliesUp env s U'.st.zlow V'.st.zup =
          Tr.impliesUp { env with data := D' } s' U'.st.zlow V'.st.zup := by
        simp only [Tr.impliesUp, h1]
      simp only [Tr.computeUp, e1, e2, f1, f2, ok_bind, e3, f3, hd]
      exact map_bind_congr _ fun z => map_bind_congr _ fun p => rfl
  | @ev b s s' I c c' hs _ ih =>
    obtain ⟨h1, h2, h3⟩ := hs
    rcases seen_cases ih with ⟨e, e1, e2⟩ | ⟨U, U', v, e1, e2, e3⟩
    · cases b <;> simp only [bnd_true, bnd_false] at e1 e2 ⊢ <;>
        simp only [Tr.computeLow, Tr.computeUp, e1, e2, error_bind]
    cases b with
    | true =>
      simp only [pick, if_true] at h3 e3
      simp only [bnd_true] at e1 e2 ⊢
      have hd : ∀ a b z, Tr.evLow env s a b z = Tr.evLow { env with data := D' } s' a b z := by
        intro a b z
        simp only [Tr.evLow, h1, h2, h3]
      simp only [Tr.computeLow, e1, e2, ok_bind, e3, hd]
      exact map_bind_congr _ fun z => rfl
    | false =>
      simp only [pick, Bool.false_eq_true, if_false] at h3 e3
      simp only [bnd_false] at e1 e2 ⊢
      have hd : ∀ a b z, Tr.evUp env s a b z = Tr.evUp { env with data := D' } s' a b z := by
        intro a b z
        simp only [Tr.evUp, h1, h2, h3]
      simp only [Tr.computeUp, e1, e2, ok_bind, e3, hd]
      exact map_bind_congr _ fun z => rfl
  | @alw b s s' I c c' hs _ ih =>
    obtain ⟨h1, h2, h3⟩ := hs
    rcases seen_cases ih with ⟨e, e1, e2⟩ | ⟨U, U', v, e1, e2, e3⟩
    · cases b <;> simp only [bnd_true, bnd_false] at e1 e2 ⊢ <;>
        simp only [Tr.computeLow, Tr.computeUp, e1, e2, error_bind]
    cases b with
    | true =>
      simp only [pick, if_true] at h3 e3
      simp only [bnd_true] at e1 e2 ⊢
      have hd : ∀ a b z, Tr.alwLow env s a b z = Tr.alwLow { env with data := D' } s' a b z := by
        intro a b z
        simp only [Tr.alwLow, h1, h2, h3]
      simp only [Tr.computeLow, e1, e2, ok_bind, e3, hd]
      exact map_bind_congr _ fun z => rfl
    | false =>
      simp only [pick, Bool.false_eq_true, if_false] at h3 e3
      simp only [bnd_false] at e1 e2 ⊢
      have hd : ∀ a b z, Tr.alwUp env s a b z = Tr.alwUp { env with data := D' } s' a b z := by
        intro a b z
        simp only [Tr.alwUp, h1, h2, h3]
      simp only [Tr.computeUp, e1, e2, ok_bind, e3, hd]
      exact map_bind_congr _ fun z => rfl
  | @untl b s s' I l r l' r' hs _ _ ih1 ih2 =>
    obtain ⟨h1, h2, h3⟩ := hs
    rcases seen_cases ih1 with ⟨e, e1, e2⟩ | ⟨U, U', v, e1, e2, e3⟩
    · cases b <;> simp only [bnd_true, bnd_false] at e1 e2 ⊢ <;>
        simp only [Tr.computeLow, Tr.computeUp, e1, e2, error_bind]
    cases b with
    | true =>
      simp only [pick, if_true] at h3 e3
      simp only [bnd_true] at e1 e2 ih2 ⊢
      simp only [Tr.computeLow, e1, e2, ok_bind]
      split_ifs
      · simp only [Except.map, STLRom.seen, pick, if_true, Tr.st, h3]
      rcases seen_cases ih2 with ⟨e, f1, f2⟩ | ⟨V, V', w, f1, f2, f3⟩
      · simp only [f1, f2, error_bind]
      simp only [f1, f2, ok_bind]
      split_ifs
      · simp only [Except.map, STLRom.seen, pick, if_true, Tr.st, h3]
      simp only [pick, if_true] at f3
      have hd : ∀ a b z w, Tr.untilLow env s a b z w = Tr.untilLow { env with data := D' } s' a b z w := by
        intro a b z w
        simp only [Tr.untilLow, h1, h2, h3]
      simp only [e3, f3, hd]
      exact map_bind_congr _ fun z => rfl
    | false =>
      simp only [pick, Bool.false_eq_true, if_false] at h3 e3
      simp only [bnd_false] at e1 e2 ih2 ⊢
      simp only [Tr.computeUp, e1, e2, ok_bind]
      split_ifs
      · simp only [Except.map, STLRom.seen, pick, Bool.false_eq_true, if_false, Tr.st, h3]
      rcases seen_cases ih2 with ⟨e, f1, f2⟩ | ⟨V, V', w, f1, f2, f3⟩
      · simp only [f1, f2, error_bind]
      simp only [f1, f2, ok_bind]
      split_ifs
      · simp only [Except.map, STLRom.seen, pick, Bool.false_eq_true, if_false, Tr.st, h3]
      simp only [pick, Bool.false_eq_true, if_false] at f3
      have hd : ∀ a b z w, Tr.untilUp env s a b z w = Tr.untilUp { env with data := D' } s' a b z w := by
        intro a b z w
        simp only [Tr.untilUp, h1, h2, h3]
      simp only [e3, f3, hd]
      exact map_bind_congr _ fun z => rfl

theorem Like.seen {b : Bool} {T T' : Tr} (h : Like env b T T') :
    (bnd env b T).map (seen b) = (bnd env b T').map (STLRom.seen b) :=
  Alike.seen h

theorem SameSt.up {s : St} {b : Bool} {z : Signal} :
    SameSt (!b) s (if b then { s with zlow := z } else { s with zup := z }) := by
  cases b <;> exact ⟨rfl, rfl, rfl⟩

/-- One bound leaves alone what the other one reads. -/
theorem bnd_keeps (hD : WellShaped n env.data) (T : Tr) :
    ∀ {b : Bool} {U : Tr} {v : ℚ}, Settled n env.data T → bnd env b T = .ok (U, v) →
      Settled n env.data U ∧ Like env (!b) T U := by
  induction T with
  | atom s k l r =>
    intro b U v hS h
    cases b with
    | true =>
      simp only [bnd_true, Tr.computeLow] at h
      obtain ⟨⟨U1, x⟩, h1, h⟩ := bind_eq_ok.1 h
      obtain ⟨z, l', r', rfl, a0, a1, a2, a3⟩ := atom_rerun hD hS.1 hS.2.1 hS.2.2 h1
      obtain ⟨w, h2, h⟩ := bind_eq_ok.1 h
      obtain ⟨p, h3, h⟩ := bind_eq_ok.1 h
      simp only [Except.ok.injEq, Prod.mk.injEq] at h
      obtain ⟨rfl, rfl⟩ := h
      obtain ⟨T2, x', a4, a5⟩ := a3 w s.zup
      exact ⟨⟨a0, a1, a2⟩, .atom ⟨rfl, rfl, rfl⟩ (by
        simp only [h1, Tr.st, a4, Except.map]
        exact congrArg _ a5.symm)⟩
    | false =>
      simp only [bnd_false, Tr.computeUp] at h
      obtain ⟨⟨U1, x⟩, h1, h⟩ := bind_eq_ok.1 h
      obtain ⟨z, l', r', rfl, a0, a1, a2, a3⟩ := atom_rerun hD hS.1 hS.2.1 hS.2.2 h1
      obtain ⟨w, h2, h⟩ := bind_eq_ok.1 h
      obtain ⟨p, h3, h⟩ := bind_eq_ok.1 h
      simp only [Except.ok.injEq, Prod.mk.injEq] at h
      obtain ⟨rfl, rfl⟩ := h
      obtain ⟨T2, x', a4, a5⟩ := a3 s.zlow w
      exact ⟨⟨a0, a1, a2⟩, .atom ⟨rfl, rfl, rfl⟩ (by
        simp only [h1, Tr.st, a4, Except.map]
        exact congrArg _ a5.symm)⟩
  | not s c ih =>
    intro b U v hS h
    cases b with
    | true =>
      simp only [bnd_true, Tr.computeLow] at h
      obtain ⟨⟨c', x⟩, h1, h⟩ := bind_eq_ok.1 h
      obtain ⟨a1, a2⟩ := ih (b := false) hS h1
      simp only at h
      split_ifs at h
      · obtain ⟨w, h2, h⟩ := bind_eq_ok.1 h
        simp only [Except.ok.injEq, Prod.mk.injEq] at h
        obtain ⟨rfl, rfl⟩ := h
        exact ⟨a1, .not ⟨rfl, rfl, rfl⟩ a2⟩
      · obtain ⟨w, h2, h⟩ := bind_eq_ok.1 h
        simp only [Except.ok.injEq, Prod.mk.injEq] at h
        obtain ⟨rfl, rfl⟩ := h
        exact ⟨a1, .not ⟨rfl, rfl, rfl⟩ a2⟩
    | false =>
      simp only [bnd_false, Tr.computeUp] at h
      obtain ⟨⟨c', x⟩, h1, h⟩ := bind_eq_ok.1 h
      obtain ⟨a1, a2⟩ := ih (b := true) hS h1
      simp only at h
      split_ifs at h
      · obtain ⟨w, h2, h⟩ := bind_eq_ok.1 h
        simp only [Except.ok.injEq, Prod.mk.injEq] at h
        obtain ⟨rfl, rfl⟩ := h
        exact ⟨a1, .not ⟨rfl, rfl, rfl⟩ a2⟩
      · obtain ⟨w, h2, h⟩ := bind_eq_ok.1 h
        simp only [Except.ok.injEq, Prod.mk.injEq] at h
        obtain ⟨rfl, rfl⟩ := h
        exact ⟨a1, .not ⟨rfl, rfl, rfl⟩ a2⟩
  | and s l r ih1 ih2 | or s l r ih1 ih2 =>
    intro b U v hS h
    cases b with
    | true =>
      simp only [bnd_true, Tr.computeLow] at h
      obtain ⟨⟨l', x⟩, h1, h⟩ := bind_eq_ok.1 h
      obtain ⟨⟨r', y⟩, h2, h⟩ := bind_eq_ok.1 h
      obtain ⟨a1, a2⟩ := ih1 (b := true) hS.1 h1
      obtain ⟨b1, b2⟩ := ih2 (b := true) hS.2 h2
      obtain ⟨w, h3, h⟩ := bind_eq_ok.1 h
      obtain ⟨p, h4, h⟩ := bind_eq_ok.1 h
      simp only [Except.ok.injEq, Prod.mk.injEq] at h
      obtain ⟨rfl, rfl⟩ := h
      refine ⟨⟨a1, b1⟩, ?_⟩
      first | exact .and ⟨rfl, rfl, rfl⟩ a2 b2 | exact .or ⟨rfl, rfl, rfl⟩ a2 b2
    | false =>
      simp only [bnd_false, Tr.computeUp] at h
      obtain ⟨⟨l', x⟩, h1, h⟩ := bind_eq_ok.1 h
      obtain ⟨⟨r', y⟩, h2, h⟩ := bind_eq_ok.1 h
      obtain ⟨a1, a2⟩ := ih1 (b := false) hS.1 h1
      obtain ⟨b1, b2⟩ := ih2 (b := false) hS.2 h2
      obtain ⟨w, h3, h⟩ := bind_eq_ok.1 h
      obtain ⟨p, h4, h⟩ := bind_eq_ok.1 h
      simp only [Except.ok.injEq, Prod.mk.injEq] at h
      obtain ⟨rfl, rfl⟩ := h
      refine ⟨⟨a1, b1⟩, ?_⟩
      first | exact .and ⟨rfl, rfl, rfl⟩ a2 b2 | exact .or ⟨rfl, rfl, rfl⟩ a2 b2
  | implies s l r ih1 ih2 =>
    intro b U v hS h
    cases b with
    | true =>
      simp only [bnd_true, Tr.computeLow] at h
      obtain ⟨⟨l', x⟩, h1, h⟩ := bind_eq_ok.1 h
      obtain ⟨⟨r', y⟩, h2, h⟩ := bind_eq_ok.1 h
      obtain ⟨a1, a2⟩ := ih1 (b := false) hS.1 h1
      obtain ⟨b1, b2⟩ := ih2 (b := true) hS.2 h2
      obtain ⟨w, h3, h⟩ := bind_eq_ok.1 h
      obtain ⟨p, h4, h⟩ := bind_eq_ok.1 h
      simp only [Except.ok.injEq, Prod.mk.injEq] at h
      obtain ⟨rfl, rfl⟩ := h
      exact ⟨⟨a1, b1⟩, .implies ⟨rfl, rfl, rfl⟩ a2 b2⟩
    | false =>
      simp only [bnd_false, Tr.computeUp] at h
      obtain ⟨⟨l', x⟩, h1, h⟩ := bind_eq_ok.1 h
      obtain ⟨⟨r', y⟩, h2, h⟩ := bind_eq_ok.1 h
      obtain ⟨a1, a2⟩ := ih1 (b := true) hS.1 h1
      obtain ⟨b1, b2⟩ := ih2 (b := false) hS.2 h2
      obtain ⟨w, h3, h⟩ := bind_eq_ok.1 h
      obtain ⟨p, h4, h⟩ := bind_eq_ok.1 h
      simp only [Except.ok.injEq, Prod.mk.injEq] at h
      obtain ⟨rfl, rfl⟩ := h
      exact ⟨⟨a1, b1⟩, .implies ⟨rfl, rfl, rfl⟩ a2 b2⟩
  | ev s I c ih | alw s I c ih =>
    intro b U v hS h
    cases b with
    | true =>
      simp only [bnd_true, Tr.computeLow] at h
      obtain ⟨⟨c', x⟩, h1, h⟩ := bind_eq_ok.1 h
      obtain ⟨a1, a2⟩ := ih (b := true) hS h1
      obtain ⟨w, h2, h⟩ := bind_eq_ok.1 h
      simp only [Except.ok.injEq, Prod.mk.injEq] at h
      obtain ⟨rfl, rfl⟩ := h
      refine ⟨a1, ?_⟩
      first | exact .ev ⟨rfl, rfl, rfl⟩ a2 | exact .alw ⟨rfl, rfl, rfl⟩ a2
    | false =>
      simp only [bnd_false, Tr.computeUp] at h
      obtain ⟨⟨c', x⟩, h1, h⟩ := bind_eq_ok.1 h
      obtain ⟨a1, a2⟩ := ih (b := false) hS h1
      obtain ⟨w, h2, h⟩ := bind_eq_ok.1 h
      simp only [Except.ok.injEq, Prod.mk.injEq] at h
      obtain ⟨rfl, rfl⟩ := h
      refine ⟨a1, ?_⟩
      first | exact .ev ⟨rfl, rfl, rfl⟩ a2 | exact .alw ⟨rfl, rfl, rfl⟩ a2
  | untl s l I r ih1 ih2 =>
    intro b U v hS h
    cases b with
    | true =>
      simp only [bnd_true, Tr.computeLow] at h
      obtain ⟨⟨l', x⟩, h1, h⟩ := bind_eq_ok.1 h
      obtain ⟨a1, a2⟩ := ih1 (b := true) hS.1 h1
      simp only at h
      split_ifs at h
      · simp only [Except.ok.injEq, Prod.mk.injEq] at h
        obtain ⟨rfl, rfl⟩ := h
        exact ⟨⟨a1, hS.2⟩, .untl ⟨rfl, rfl, rfl⟩ a2 (Like.refl _ hS.2)⟩
      obtain ⟨⟨r', y⟩, h2, h⟩ := bind_eq_ok.1 h
      obtain ⟨b1, b2⟩ := ih2 (b := true) hS.2 h2
      simp only at h
      split_ifs at h
      · simp only [Except.ok.injEq, Prod.mk.injEq] at h
        obtain ⟨rfl, rfl⟩ := h
        exact ⟨⟨a1, b1⟩, .untl ⟨rfl, rfl, rfl⟩ a2 b2⟩
      obtain ⟨w, h3, h⟩ := bind_eq_ok.1 h
      simp only [Except.ok.injEq, Prod.mk.injEq] at h
      obtain ⟨rfl, rfl⟩ := h
      exact ⟨⟨a1, b1⟩, .untl ⟨rfl, rfl, rfl⟩ a2 b2⟩
    | false =>
      simp only [bnd_false, Tr.computeUp] at h
      obtain ⟨⟨l', x⟩, h1, h⟩ := bind_eq_ok.1 h
      obtain ⟨a1, a2⟩ := ih1 (b := false) hS.1 h1
      simp only at h
      split_ifs at h
      · simp only [Except.ok.injEq, Prod.mk.injEq] at h
        obtain ⟨rfl, rfl⟩ := h
        exact ⟨⟨a1, hS.2⟩, .untl ⟨rfl, rfl, rfl⟩ a2 (Like.refl _ hS.2)⟩
      obtain ⟨⟨r', y⟩, h2, h⟩ := bind_eq_ok.1 h
      obtain ⟨b1, b2⟩ := ih2 (b := false) hS.2 h2
      simp only at h
      split_ifs at h
      · simp only [Except.ok.injEq, Prod.mk.injEq] at h
        obtain ⟨rfl, rfl⟩ := h
        exact ⟨⟨a1, b1⟩, .untl ⟨rfl, rfl, rfl⟩ a2 b2⟩
      obtain ⟨w, h3, h⟩ := bind_eq_ok.1 h
      simp only [Except.ok.injEq, Prod.mk.injEq] at h
      obtain ⟨rfl, rfl⟩ := h
      exact ⟨⟨a1, b1⟩, .untl ⟨rfl, rfl, rfl⟩ a2 b2⟩
  | _ => intro b U v hS; exact hS.elim

theorem settled_setZ {D : List (List ℚ)} {T : Tr} (z : Signal) (h : Settled n D T)
    (ha : ∀ s k l r, T = .atom s k l r → (z.samples = [] ∨ Incr z) ∧ Within z) :
    Settled n D (T.setZ z) := by
  cases T with
  | atom s k l r =>
    obtain ⟨a1, a2⟩ := ha s k l r rfl
    exact ⟨⟨a1, Or.inl a2⟩, h.2⟩
  | _ => exact h

/-- After the first run the expressions have been run, and the bounds are still empty. -/
theorem rob_settles (hD : WellShaped n env.data) {P : Assoc ℚ} (T : Tr) :
    ∀ {S E : ℚ} {T' : Tr} {x : ℚ}, IsStl T → Fresh P S E T → Tr.computeRob env T = .ok (T', x) →
      Settled n env.data T' ∧ T'.st.zlow = .empty ∧ T'.st.zup = .empty ∧
        (∃ p, T'.st.z.front = .ok p ∧ x = p.value) ∧
        ∀ s k l r, T' = .atom s k l r → Incr s.z ∧ Within s.z := by
  induction T with
  | atom s k l r =>
    intro S E T' x ht hf h
    obtain ⟨z, l', r', p, rfl, a1, a2, a3, a4, a5, a6⟩ :=
      atom_run hD ht.1 ht.2 hf.1.2.2.1 hf.2.1 hf.2.2 h
    exact ⟨⟨⟨Or.inr a3, Or.inl a4⟩, a1, a2⟩, hf.1.2.2.2.1, hf.1.2.2.2.2, ⟨p, a5, a6⟩, by
      rintro _ _ _ _ ⟨⟩
      exact ⟨a3, a4⟩⟩
  | not s c ih =>
    intro S E T' x ht hf h
    simp only [Tr.computeRob] at h
    obtain ⟨⟨c', y⟩, h1, h⟩ := bind_eq_ok.1 h
    obtain ⟨p, h4, h⟩ := bind_eq_ok.1 h
    simp only [Except.ok.injEq, Prod.mk.injEq] at h
    obtain ⟨rfl, rfl⟩ := h
    exact ⟨(ih ht hf.2 h1).1, hf.1.2.2.2.1, hf.1.2.2.2.2, ⟨p, h4, rfl⟩, by
      rintro _ _ _ _ ⟨⟩⟩
  | and s l r ih1 ih2 | or s l r ih1 ih2 | implies s l r ih1 ih2 =>
    intro S E T' x ht hf h
    simp only [Tr.computeRob] at h
    obtain ⟨⟨l', y⟩, h1, h⟩ := bind_eq_ok.1 h
    obtain ⟨⟨r', y'⟩, h2, h⟩ := bind_eq_ok.1 h
    obtain ⟨z, h3, h⟩ := bind_eq_ok.1 h
    obtain ⟨p, h4, h⟩ := bind_eq_ok.1 h
    simp only [Except.ok.injEq, Prod.mk.injEq] at h
    obtain ⟨rfl, rfl⟩ := h
    exact ⟨⟨(ih1 ht.1 hf.2.1 h1).1, (ih2 ht.2 hf.2.2 h2).1⟩, hf.1.2.2.2.1, hf.1.2.2.2.2, ⟨p, h4, rfl⟩, by
      rintro _ _ _ _ ⟨⟩⟩
  | ev s I c ih =>
    intro S E T' x ht hf h
    simp only [Tr.computeRob] at h
    obtain ⟨⟨c', y⟩, h1, h⟩ := bind_eq_ok.1 h
    obtain ⟨⟨z, zc⟩, h3, h⟩ := bind_eq_ok.1 h
    obtain ⟨p, h4, h⟩ := bind_eq_ok.1 h
    simp only [Except.ok.injEq, Prod.mk.injEq] at h
    obtain ⟨rfl, rfl⟩ := h
    obtain ⟨i1, _, _, _, i5⟩ := ih ht hf.2 h1
    have hset : Settled n env.data (c'.setZ zc) := by
      refine settled_setZ _ i1 fun s' k l r hc => ?_
      obtain ⟨b1, b2⟩ := i5 s' k l r hc
      unfold Tr.evRob at h3
      obtain ⟨z1, _, h3⟩ := bind_eq_ok.1 h3
      obtain ⟨z2, h5, h3⟩ := bind_eq_ok.1 h3
      obtain ⟨z3, _, h3⟩ := bind_eq_ok.1 h3
      simp only [Except.ok.injEq, Prod.mk.injEq] at h3
      obtain ⟨rfl, rfl⟩ := h3
      rw [hc] at h5
      exact resize_tail b1 b2 h5
    exact ⟨hset, hf.1.2.2.2.1, hf.1.2.2.2.2, ⟨p, h4, rfl⟩, by
      rintro _ _ _ _ ⟨⟩⟩
  | alw s I c ih =>
    intro S E T' x ht hf h
    simp only [Tr.computeRob] at h
    obtain ⟨⟨c', y⟩, h1, h⟩ := bind_eq_ok.1 h
    obtain ⟨z, h3, h⟩ := bind_eq_ok.1 h
    obtain ⟨p, h4, h⟩ := bind_eq_ok.1 h
    simp only [Except.ok.injEq, Prod.mk.injEq] at h
    obtain ⟨rfl, rfl⟩ := h
    exact ⟨(ih ht hf.2 h1).1, hf.1.2.2.2.1, hf.1.2.2.2.2, ⟨p, h4, rfl⟩, by
      rintro _ _ _ _ ⟨⟩⟩
  | untl s l I r ih1 ih2 =>
    intro S E T' x ht hf h
    simp only [Tr.computeRob] at h
    obtain ⟨⟨l', y⟩, h1, h⟩ := bind_eq_ok.1 h
    obtain ⟨⟨r', y'⟩, h2, h⟩ := bind_eq_ok.1 h
    obtain ⟨z, h3, h⟩ := bind_eq_ok.1 h
    obtain ⟨p, h4, h⟩ := bind_eq_ok.1 h
    simp only [Except.ok.injEq, Prod.mk.injEq] at h
    obtain ⟨rfl, rfl⟩ := h
    exact ⟨⟨(ih1 ht.1 hf.2.1 h1).1, (ih2 ht.2 hf.2.2 h2).1⟩, hf.1.2.2.2.1, hf.1.2.2.2.2, ⟨p, h4, rfl⟩, by
      rintro _ _ _ _ ⟨⟩⟩
  | _ => intro S E T' x ht; exact ht.elim

/-- Both orders of the two bounds. -/
theorem bnd_swap (hD : WellShaped n env.data) {T U V : Tr} {b : Bool}
    {x y : ℚ} (hS : Settled n env.data T) (h1 : bnd env b T = .ok (U, x))
    (h2 : bnd env (!b) U = .ok (V, y)) :
    ∃ U' V', bnd env (!b) T = .ok (U', y) ∧ bnd env b U' = .ok (V', x) ∧
      pick (!b) U'.st = pick (!b) V.st ∧ pick b V'.st = pick b U.st := by
  obtain ⟨_, a2⟩ := bnd_keeps hD T hS h1
  rcases seen_cases a2.seen with ⟨e, _, e2⟩ | ⟨U', V1, v, e1, e2, e3⟩
  · rw [e2] at h2; cases h2
  rw [h2] at e2
  simp only [Except.ok.injEq, Prod.mk.injEq] at e2
  obtain ⟨rfl, rfl⟩ := e2
  obtain ⟨_, b2⟩ := bnd_keeps hD T hS e1
  rw [Bool.not_not] at b2
  rcases seen_cases b2.seen with ⟨e, f1, _⟩ | ⟨U1, V', w, f1, f2, f3⟩
  · rw [f1] at h1; cases h1
  rw [h1] at f1
  simp only [Except.ok.injEq, Prod.mk.injEq] at f1
  obtain ⟨rfl, rfl⟩ := f1
  exact ⟨U', V', e1, f2, e3, f3.symm⟩

theorem Like.pick {b : Bool} {T T' : Tr} (h : Like env b T T') : pick b T.st = STLRom.pick b T'.st := by
  cases h with
  | atom h | not h | and h | or h | implies h | ev h | alw h | untl h => exact h.2.2

/-- The value a bound returns is the first value of its signal; without a signal it is the worst
possible one. -/
theorem bnd_value {D : List (List ℚ)} {T U : Tr} {b : Bool} {x : ℚ} (hS : Settled n D T)
    (he : pick b T.st = .empty) (h : bnd env b T = .ok (U, x)) :
    (pick b U.st).samples = [] ∧ x = (if b then -env.B else env.B) ∨
      ∃ p, (pick b U.st).front = .ok p ∧ x = p.value := by
  have app : ∀ t c z, Signal.appendSample0 env.ip .empty t c = .ok z →
      ∃ p, z.front = .ok p ∧ c = p.value := by
    intro t c z h
    have : z = ⟨[⟨t, c, 0⟩], t, t⟩ := by
      unfold Signal.appendSample0 Signal.appendSample at h
      cases hip : env.ip <;> simp [hip, Signal.empty] at h <;> exact h.symm
    exact ⟨⟨t, c, 0⟩, by rw [this]; rfl, rfl⟩
  cases T with
  | atom s k l r =>
    right
    cases b with
    | true =>
      simp only [bnd_true, Tr.computeLow] at h
      obtain ⟨⟨U1, x⟩, h1, h⟩ := bind_eq_ok.1 h
      obtain ⟨z, l', r', rfl⟩ := atom_shape h1
      obtain ⟨w, h2, h⟩ := bind_eq_ok.1 h
      obtain ⟨p, h3, h⟩ := bind_eq_ok.1 h
      simp only [Except.ok.injEq, Prod.mk.injEq] at h
      obtain ⟨rfl, rfl⟩ := h
      exact ⟨p, h3, rfl⟩
    | false =>
      simp only [bnd_false, Tr.computeUp] at h
      obtain ⟨⟨U1, x⟩, h1, h⟩ := bind_eq_ok.1 h
      obtain ⟨z, l', r', rfl⟩ := atom_shape h1
      obtain ⟨w, h2, h⟩ := bind_eq_ok.1 h
      obtain ⟨p, h3, h⟩ := bind_eq_ok.1 h
      simp only [Except.ok.injEq, Prod.mk.injEq] at h
      obtain ⟨rfl, rfl⟩ := h
      exact ⟨p, h3, rfl⟩
  | not s c =>
    right
    cases b with
    | true =>
      have he : s.zlow = .empty := he
      simp only [bnd_true, Tr.computeLow] at h
      obtain ⟨⟨c', x⟩, h1, h⟩ := bind_eq_ok.1 h
      simp only at h
      split_ifs at h
      · obtain ⟨w, h2, h⟩ := bind_eq_ok.1 h
        simp only [Except.ok.injEq, Prod.mk.injEq] at h
        obtain ⟨rfl, rfl⟩ := h
        rw [he] at h2
        exact app _ _ _ h2
      · obtain ⟨p, h2, h⟩ := bind_eq_ok.1 h
        simp only [Except.ok.injEq, Prod.mk.injEq] at h
        obtain ⟨rfl, rfl⟩ := h
        exact ⟨p, h2, rfl⟩
    | false =>
      have he : s.zup = .empty := he
      simp only [bnd_false, Tr.computeUp] at h
      obtain ⟨⟨c', x⟩, h1, h⟩ := bind_eq_ok.1 h
      simp only at h
      split_ifs at h
      · obtain ⟨w, h2, h⟩ := bind_eq_ok.1 h
        simp only [Except.ok.injEq, Prod.mk.injEq] at h
        obtain ⟨rfl, rfl⟩ := h
        rw [he] at h2
        exact app _ _ _ h2
      · obtain ⟨p, h2, h⟩ := bind_eq_ok.1 h
        simp only [Except.ok.injEq, Prod.mk.injEq] at h
        obtain ⟨rfl, rfl⟩ := h
        exact ⟨p, h2, rfl⟩
  | and s l r | or s l r | implies s l r =>
    right
    cases b with
    | true =>
      simp only [bnd_true, Tr.computeLow] at h
      obtain ⟨⟨l', x⟩, h1, h⟩ := bind_eq_ok.1 h
      obtain ⟨⟨r', y⟩, h2, h⟩ := bind_eq_ok.1 h
      obtain ⟨w, h3, h⟩ := bind_eq_ok.1 h
      obtain ⟨p, h4, h⟩ := bind_eq_ok.1 h
      simp only [Except.ok.injEq, Prod.mk.injEq] at h
      obtain ⟨rfl, rfl⟩ := h
      exact ⟨p, h4, rfl⟩
    | false =>
      simp only [bnd_false, Tr.computeUp] at h
      obtain ⟨⟨l', x⟩, h1, h⟩ := bind_eq_ok.1 h
      obtain ⟨⟨r', y⟩, h2, h⟩ := bind_eq_ok.1 h
      obtain ⟨w, h3, h⟩ := bind_eq_ok.1 h
      obtain ⟨p, h4, h⟩ := bind_eq_ok.1 h
      simp only [Except.ok.injEq, Prod.mk.injEq] at h
      obtain ⟨rfl, rfl⟩ := h
      exact ⟨p, h4, rfl⟩
  | ev s I c =>
    right
    cases b with
    | true =>
      have he : s.zlow = .empty := he
      simp only [bnd_true, Tr.computeLow] at h
      obtain ⟨⟨c', x⟩, h1, h⟩ := bind_eq_ok.1 h
      obtain ⟨⟨w, y⟩, h2, h⟩ := bind_eq_ok.1 h
      simp only [Except.ok.injEq, Prod.mk.injEq] at h
      obtain ⟨rfl, rfl⟩ := h
      unfold Tr.evLow at h2
      split_ifs at h2
      · obtain ⟨z, h3, h2⟩ := bind_eq_ok.1 h2
        simp only [Except.ok.injEq, Prod.mk.injEq] at h2
        obtain ⟨rfl, rfl⟩ := h2
        rw [he] at h3
        exact app _ _ _ h3
      · obtain ⟨z, _, h2⟩ := bind_eq_ok.1 h2
        obtain ⟨z, _, h2⟩ := bind_eq_ok.1 h2
        obtain ⟨z, _, h2⟩ := bind_eq_ok.1 h2
        obtain ⟨p, h3, h2⟩ := bind_eq_ok.1 h2
        simp only [Except.ok.injEq, Prod.mk.injEq] at h2
        obtain ⟨rfl, rfl⟩ := h2
        exact ⟨p, h3, rfl⟩
    | false =>
      have he : s.zup = .empty := he
      simp only [bnd_false, Tr.computeUp] at h
      obtain ⟨⟨c', x⟩, h1, h⟩ := bind_eq_ok.1 h
      obtain ⟨⟨w, y⟩, h2, h⟩ := bind_eq_ok.1 h
      simp only [Except.ok.injEq, Prod.mk.injEq] at h
      obtain ⟨rfl, rfl⟩ := h
      unfold Tr.evUp at h2
      split_ifs at h2
      · obtain ⟨z, h3, h2⟩ := bind_eq_ok.1 h2
        simp only [Except.ok.injEq, Prod.mk.injEq] at h2
        obtain ⟨rfl, rfl⟩ := h2
        rw [he] at h3
        exact app _ _ _ h3
      · obtain ⟨z, _, h2⟩ := bind_eq_ok.1 h2
        obtain ⟨z, _, h2⟩ := bind_eq_ok.1 h2
        obtain ⟨z, _, h2⟩ := bind_eq_ok.1 h2
        obtain ⟨p, h3, h2⟩ := bind_eq_ok.1 h2
        simp only [Except.ok.injEq, Prod.mk.injEq] at h2
        obtain ⟨rfl, rfl⟩ := h2
        exact ⟨p, h3, rfl⟩
  | alw s I c =>
    right
    cases b with
    | true =>
      have he : s.zlow = .empty := he
      simp only [bnd_true, Tr.computeLow] at h
      obtain ⟨⟨c', x⟩, h1, h⟩ := bind_eq_ok.1 h
      obtain ⟨⟨w, y⟩, h2, h⟩ := bind_eq_ok.1 h
      simp only [Except.ok.injEq, Prod.mk.injEq] at h
      obtain ⟨rfl, rfl⟩ := h
      unfold Tr.alwLow at h2
      split_ifs at h2
      · obtain ⟨z, h3, h2⟩ := bind_eq_ok.1 h2
        simp only [Except.ok.injEq, Prod.mk.injEq] at h2
        obtain ⟨rfl, rfl⟩ := h2
        rw [he] at h3
        exact app _ _ _ h3
      · obtain ⟨z, _, h2⟩ := bind_eq_ok.1 h2
        obtain ⟨z, _, h2⟩ := bind_eq_ok.1 h2
        obtain ⟨z, _, h2⟩ := bind_eq_ok.1 h2
        obtain ⟨p, h3, h2⟩ := bind_eq_ok.1 h2
        simp only [Except.ok.injEq, Prod.mk.injEq] at h2
        obtain ⟨rfl, rfl⟩ := h2
        exact ⟨p, h3, rfl⟩
    | false =>
      have he : s.zup = .empty := he
      simp only [bnd_false, Tr.computeUp] at h
      obtain ⟨⟨c', x⟩, h1, h⟩ := bind_eq_ok.1 h
      obtain ⟨⟨w, y⟩, h2, h⟩ := bind_eq_ok.1 h
      simp only [Except.ok.injEq, Prod.mk.injEq] at h
      obtain ⟨rfl, rfl⟩ := h
      unfold Tr.alwUp at h2
      split_ifs at h2
      · obtain ⟨z, h3, h2⟩ := bind_eq_ok.1 h2
        simp only [Except.ok.injEq, Prod.mk.injEq] at h2
        obtain ⟨rfl, rfl⟩ := h2
        rw [he] at h3
        exact app _ _ _ h3
      · obtain ⟨z, _, h2⟩ := bind_eq_ok.1 h2
        obtain ⟨z, _, h2⟩ := bind_eq_ok.1 h2
        obtain ⟨z, _, h2⟩ := bind_eq_ok.1 h2
        obtain ⟨p, h3, h2⟩ := bind_eq_ok.1 h2
        simp only [Except.ok.injEq, Prod.mk.injEq] at h2
        obtain ⟨rfl, rfl⟩ := h2
        exact ⟨p, h3, rfl⟩
  | untl s l I r =>
    cases b with
    | true =>
      have he : s.zlow = .empty := he
      simp only [bnd_true, Tr.computeLow] at h
      obtain ⟨⟨l', x⟩, h1, h⟩ := bind_eq_ok.1 h
      simp only at h
      split_ifs at h
      · simp only [Except.ok.injEq, Prod.mk.injEq] at h
        obtain ⟨rfl, rfl⟩ := h
        exact Or.inl ⟨congrArg Signal.samples he, rfl⟩
      obtain ⟨⟨r', y⟩, h2, h⟩ := bind_eq_ok.1 h
      simp only at h
      split_ifs at h
      · simp only [Except.ok.injEq, Prod.mk.injEq] at h
        obtain ⟨rfl, rfl⟩ := h
        exact Or.inl ⟨congrArg Signal.samples he, rfl⟩
      obtain ⟨⟨w, y⟩, h3, h⟩ := bind_eq_ok.1 h
      simp only [Except.ok.injEq, Prod.mk.injEq] at h
      obtain ⟨rfl, rfl⟩ := h
      unfold Tr.untilLow at h3
      obtain ⟨z, _, h3⟩ := bind_eq_ok.1 h3
      obtain ⟨z, _, h3⟩ := bind_eq_ok.1 h3
      rcases hz : z.samples with _ | ⟨p, l⟩
      · rw [hz] at h3
        simp only [Except.ok.injEq, Prod.mk.injEq] at h3
        obtain ⟨rfl, rfl⟩ := h3
        exact Or.inl ⟨hz, rfl⟩
      · rw [hz] at h3
        simp only [Except.ok.injEq, Prod.mk.injEq] at h3
        obtain ⟨rfl, rfl⟩ := h3
        exact Or.inr ⟨p, by show z.front = _; unfold Signal.front; rw [hz], rfl⟩
    | false =>
      have he : s.zup = .empty := he
      simp only [bnd_false, Tr.computeUp] at h
      obtain ⟨⟨l', x⟩, h1, h⟩ := bind_eq_ok.1 h
      simp only at h
      split_ifs at h
      · simp only [Except.ok.injEq, Prod.mk.injEq] at h
        obtain ⟨rfl, rfl⟩ := h
        exact Or.inl ⟨congrArg Signal.samples he, rfl⟩
      obtain ⟨⟨r', y⟩, h2, h⟩ := bind_eq_ok.1 h
      simp only at h
      split_ifs at h
      · simp only [Except.ok.injEq, Prod.mk.injEq] at h
        obtain ⟨rfl, rfl⟩ := h
        exact Or.inl ⟨congrArg Signal.samples he, rfl⟩
      obtain ⟨⟨w, y⟩, h3, h⟩ := bind_eq_ok.1 h
      simp only [Except.ok.injEq, Prod.mk.injEq] at h
      obtain ⟨rfl, rfl⟩ := h
      unfold Tr.untilUp at h3
      obtain ⟨z, _, h3⟩ := bind_eq_ok.1 h3
      obtain ⟨z, _, h3⟩ := bind_eq_ok.1 h3
      rcases hz : z.samples with _ | ⟨p, l⟩
      · rw [hz] at h3
        simp only [Except.ok.injEq, Prod.mk.injEq] at h3
        obtain ⟨rfl, rfl⟩ := h3
        exact Or.inl ⟨hz, rfl⟩
      · rw [hz] at h3
        simp only [Except.ok.injEq, Prod.mk.injEq] at h3
        obtain ⟨rfl, rfl⟩ := h3
        exact Or.inr ⟨p, by show z.front = _; unfold Signal.front; rw [hz], rfl⟩
  | _ => exact hS.elim

end STLRom
