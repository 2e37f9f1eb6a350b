import Verif.Spec.Inline
import Verif.Proofs.History

/-!
# A parameter behaves like the constant it holds
-/

set_option linter.unusedSimpArgs false

namespace STLRom
open Spec

theorem map_bind' {α β γ : Type} (x : M α) (f : α → M β) (F : β → γ) :
    (x >>= f).map F = x >>= fun a => (f a).map F := by
  cases x <;> rfl

theorem bind_map' {α β γ : Type} (x : M α) (F : α → β) (f : β → M γ) :
    (x.map F) >>= f = x >>= fun a => f (F a) := by
  cases x <;> rfl

theorem map_ok' {α β : Type} (a : α) (F : α → β) :
    (Except.ok a : M α).map F = .ok (F a) := rfl

theorem map_error' {α β : Type} (f : Fault) (F : α → β) :
    (Except.error f : M α).map F = .error f := rfl

theorem map_ite' {α β : Type} (c : Prop) [Decidable c] (x y : M α) (F : α → β) :
    (if c then x else y).map F = if c then x.map F else y.map F := by
  split_ifs <;> rfl

namespace Tr

/-- `substParams` on the tree component of a result. -/
def inl (P : Assoc ℚ) (p : Tr × ℚ) : Tr × ℚ := (substParams P p.1, p.2)

variable {P : Assoc ℚ}

theorem inline_st (T : Tr) : (substParams P T).st = T.st := by
  cases T with
  | const s p v t => simp only [substParams]; cases P.lookup p <;> rfl
  | _ => rfl

theorem inline_setSt (s : St) (T : Tr) : substParams P (T.setSt s) = (substParams P T).setSt s := by
  cases T with
  | const s p v t => simp only [substParams, setSt]; cases P.lookup p <;> rfl
  | _ => rfl

theorem inline_setZ (z : Signal) (T : Tr) : substParams P (T.setZ z) = (substParams P T).setZ z := by
  simp only [setZ, inline_setSt, inline_st]

/-- `P'` declares only names that `P` declares. -/
def Sub (P' P : Assoc ℚ) : Prop := ∀ n, P.lookup n = none → P'.lookup n = none

theorem ivA_inline {P' : Assoc ℚ} (hs : Sub P' P) (h0 : P.lookup "" = none) (I : Ival) :
    ivA P' (inlineIval P I) = ivA P I := by
  have h0' := hs _ h0
  simp only [ivA, inlineIval, resolve]
  cases h : P.lookup I.beginStr <;> cases P.lookup I.stopStr <;> simp [h0', hs _, h]

theorem ivB_inline {P' : Assoc ℚ} (hs : Sub P' P) (h0 : P.lookup "" = none) (I : Ival) :
    ivB P' (inlineIval P I) = ivB P I := by
  have h0' := hs _ h0
  simp only [ivB, inlineIval, resolve]
  cases P.lookup I.beginStr <;> cases h : P.lookup I.stopStr <;> simp [h0', hs _, h]

theorem inline_setHorizon {P' : Assoc ℚ} (hs : Sub P' P) (h0 : P.lookup "" = none) (T : Tr) :
    ∀ s e, substParams P (T.setHorizon P s e) = (substParams P T).setHorizon P' s e := by
  induction T with
  | const s p v t =>
    intro s' e
    simp only [setHorizon, substParams]
    cases P.lookup p <;> rfl
  | _ => intro s e; simp only [setHorizon, substParams, ivA_inline hs h0, ivB_inline hs h0, *]

theorem inline_reset (T : Tr) : substParams P T.reset = (substParams P T).reset := by
  induction T with
  | const s p v t =>
    simp only [reset, substParams]
    cases P.lookup p <;> rfl
  | _ => simp_all [reset, substParams]

theorem inline_setTraceData (T : Tr) : substParams P T.setTraceData = (substParams P T).setTraceData := by
  induction T with
  | const s p v t =>
    simp only [setTraceData, substParams]
    cases P.lookup p <;> rfl
  | _ => simp_all [setTraceData, substParams]

theorem inline_setParamMap {P' : Assoc ℚ} (hs : Sub P' P) (h0 : P.lookup "" = none) (T : Tr) :
    substParams P (T.setParamMap P) = (substParams P T).setParamMap P' := by
  induction T with
  | const s p v t =>
    simp only [setParamMap, substParams]
    have h0' := hs _ h0
    cases h : P.lookup p with
    | none => simp [setParamMap, resolve, h, hs _ h]
    | some w => simp [setParamMap, resolve, h, h0']
  | _ => simp_all [setParamMap, substParams]

theorem inline_prepare {P' : Assoc ℚ} (hs : Sub P' P) (h0 : P.lookup "" = none) (s e : ℚ)
    (T : Tr) :
    substParams P (Monitor.prepare P s e T) = Monitor.prepare P' s e (substParams P T) := by
  simp only [Monitor.prepare, inline_setHorizon hs h0, inline_reset, inline_setParamMap hs h0,
    inline_setTraceData]

theorem atomRob_params (env : Env) (P' : Assoc ℚ) (k : Cmp) (z a b : Signal) :
    atomRob { env with params := P' } k z a b = atomRob env k z a b := rfl

theorem defaultLow_params (env : Env) (P' : Assoc ℚ) (s : St) :
    defaultLow { env with params := P' } s = defaultLow env s := rfl

theorem defaultUp_params (env : Env) (P' : Assoc ℚ) (s : St) :
    defaultUp { env with params := P' } s = defaultUp env s := rfl

theorem evLow_params (env : Env) (P' : Assoc ℚ) (s : St) (a b : ℚ) (z : Signal) :
    evLow { env with params := P' } s a b z = evLow env s a b z := rfl

theorem evUp_params (env : Env) (P' : Assoc ℚ) (s : St) (a b : ℚ) (z : Signal) :
    evUp { env with params := P' } s a b z = evUp env s a b z := rfl

theorem alwLow_params (env : Env) (P' : Assoc ℚ) (s : St) (a b : ℚ) (z : Signal) :
    alwLow { env with params := P' } s a b z = alwLow env s a b z := rfl

theorem alwUp_params (env : Env) (P' : Assoc ℚ) (s : St) (a b : ℚ) (z : Signal) :
    alwUp { env with params := P' } s a b z = alwUp env s a b z := rfl

theorem untilLow_params (env : Env) (P' : Assoc ℚ) (s : St) (a b : ℚ) (z w : Signal) :
    untilLow { env with params := P' } s a b z w = untilLow env s a b z w := rfl

theorem untilUp_params (env : Env) (P' : Assoc ℚ) (s : St) (a b : ℚ) (z w : Signal) :
    untilUp { env with params := P' } s a b z w = untilUp env s a b z w := rfl

theorem andLow_params (env : Env) (P' : Assoc ℚ) (s : St) (z w : Signal) :
    andLow { env with params := P' } s z w = andLow env s z w := rfl

theorem andUp_params (env : Env) (P' : Assoc ℚ) (s : St) (z w : Signal) :
    andUp { env with params := P' } s z w = andUp env s z w := rfl

theorem orLow_params (env : Env) (P' : Assoc ℚ) (s : St) (z w : Signal) :
    orLow { env with params := P' } s z w = orLow env s z w := rfl

theorem orUp_params (env : Env) (P' : Assoc ℚ) (s : St) (z w : Signal) :
    orUp { env with params := P' } s z w = orUp env s z w := rfl

theorem impliesLow_params (env : Env) (P' : Assoc ℚ) (s : St) (z w : Signal) :
    impliesLow { env with params := P' } s z w = impliesLow env s z w := rfl

theorem impliesUp_params (env : Env) (P' : Assoc ℚ) (s : St) (z w : Signal) :
    impliesUp { env with params := P' } s z w = impliesUp env s z w := rfl

theorem inline_computeRob {env : Env} {P' : Assoc ℚ} (hs : Sub P' env.params)
    (h0 : env.params.lookup "" = none) (T : Tr) :
    computeRob { env with params := P' } (substParams env.params T) = (computeRob env T).map (inl env.params) := by
  induction T with
  | const s p v t =>
    have e : ∀ v, constRob { env with params := P' } s v t = constRob env s v t := fun _ => rfl
    by_cases hp : p = ""
    · subst hp
      have e1 : ∀ P, constValue P "" v = v := by simp [constValue]
      simp only [substParams, h0, computeRob, map_bind', map_ok', inl, e1, e]
    · cases h : env.params.lookup p with
      | none =>
        have e1 : constValue env.params p v = 0 := by simp [constValue, hp, h]
        have e2 : constValue P' p v = 0 := by simp [constValue, hp, hs _ h]
        simp only [substParams, h, computeRob, map_bind', map_ok', inl, e1, e2, e]
      | some w =>
        have e1 : constValue P' "" w = w := by simp [constValue]
        have e2 : constValue env.params p v = w := by simp [constValue, hp, h]
        simp only [substParams, h, computeRob, map_bind', map_ok', inl, e1, e2, e]
  | sig s v m t =>
    have e : sigRob { env with params := P' } s v m t = sigRob env s v m t := rfl
    simp only [substParams, computeRob, map_bind', map_ok', inl, e]
  | _ =>
    simp only [substParams, computeRob, map_bind', bind_map', map_ok', inl, atomRob_params, defaultLow_params,
      defaultUp_params, evLow_params, evUp_params, alwLow_params, alwUp_params, untilLow_params,
      untilUp_params, andLow_params, andUp_params, orLow_params, orUp_params, impliesLow_params, impliesUp_params, inline_st, inline_setZ,
      ivA_inline hs h0, ivB_inline hs h0, *]

theorem inline_bounds {env : Env} {P' : Assoc ℚ} (hs : Sub P' env.params)
    (h0 : env.params.lookup "" = none) (T : Tr) :
    computeLow { env with params := P' } (substParams env.params T) =
      (computeLow env T).map (inl env.params) ∧
    computeUp { env with params := P' } (substParams env.params T) = (computeUp env T).map (inl env.params) := by
  induction T with
  | const s p v t =>
    have h1 := inline_computeRob hs h0 (const s p v t)
    obtain ⟨p', v', e⟩ : ∃ p' v', substParams env.params (const s p v t) = const s p' v' t := by
      simp only [substParams]
      cases env.params.lookup p <;> exact ⟨_, _, rfl⟩
    rw [e] at h1 ⊢
    constructor
    · rw [computeLow, computeLow, h1]
      simp only [map_bind', bind_map', map_ok', inl, atomRob_params, defaultLow_params,
      defaultUp_params, evLow_params, evUp_params, alwLow_params, alwUp_params, untilLow_params,
      untilUp_params, andLow_params, andUp_params, orLow_params, orUp_params, impliesLow_params, impliesUp_params, inline_st, inline_setSt]
    · rw [computeUp, computeUp, h1]
      simp only [map_bind', bind_map', map_ok', inl, atomRob_params, defaultLow_params,
      defaultUp_params, evLow_params, evUp_params, alwLow_params, alwUp_params, untilLow_params,
      untilUp_params, andLow_params, andUp_params, orLow_params, orUp_params, impliesLow_params, impliesUp_params, inline_st, inline_setSt]
  | sig s v m t =>
    have h1 := inline_computeRob hs h0 (sig s v m t)
    have e : substParams env.params (sig s v m t) = sig s v m t := rfl
    rw [e] at h1 ⊢
    constructor
    · conv_lhs => rw [computeLow, h1]
      rw [computeLow]
      simp only [map_bind', bind_map', map_ok', inl, atomRob_params, defaultLow_params,
      defaultUp_params, evLow_params, evUp_params, alwLow_params, alwUp_params, untilLow_params,
      untilUp_params, andLow_params, andUp_params, orLow_params, orUp_params, impliesLow_params, impliesUp_params, inline_st, inline_setSt]
    · conv_lhs => rw [computeUp, h1]
      rw [computeUp]
      simp only [map_bind', bind_map', map_ok', inl, atomRob_params, defaultLow_params,
      defaultUp_params, evLow_params, evUp_params, alwLow_params, alwUp_params, untilLow_params,
      untilUp_params, andLow_params, andUp_params, orLow_params, orUp_params, impliesLow_params, impliesUp_params, inline_st, inline_setSt]
  | abs s c ih =>
    have h1 := inline_computeRob hs h0 (abs s c)
    simp only [substParams] at h1
    simp only [substParams, computeLow, computeUp, h1, map_bind', bind_map', map_ok', inl, atomRob_params, defaultLow_params,
      defaultUp_params, evLow_params, evUp_params, alwLow_params, alwUp_params, untilLow_params,
      untilUp_params, andLow_params, andUp_params, orLow_params, orUp_params, impliesLow_params, impliesUp_params, inline_st,
      inline_setSt, and_self]
  | plus s l r =>
    have h1 := inline_computeRob hs h0 (plus s l r)
    simp only [substParams] at h1
    simp only [substParams, computeLow, computeUp, h1, map_bind', bind_map', map_ok', inl, atomRob_params, defaultLow_params,
      defaultUp_params, evLow_params, evUp_params, alwLow_params, alwUp_params, untilLow_params,
      untilUp_params, andLow_params, andUp_params, orLow_params, orUp_params, impliesLow_params, impliesUp_params, inline_st,
      inline_setSt, and_self]
  | minus s l r =>
    have h1 := inline_computeRob hs h0 (minus s l r)
    simp only [substParams] at h1
    simp only [substParams, computeLow, computeUp, h1, map_bind', bind_map', map_ok', inl, atomRob_params, defaultLow_params,
      defaultUp_params, evLow_params, evUp_params, alwLow_params, alwUp_params, untilLow_params,
      untilUp_params, andLow_params, andUp_params, orLow_params, orUp_params, impliesLow_params, impliesUp_params, inline_st,
      inline_setSt, and_self]
  | mult s l r =>
    have h1 := inline_computeRob hs h0 (mult s l r)
    simp only [substParams] at h1
    simp only [substParams, computeLow, computeUp, h1, map_bind', bind_map', map_ok', inl, atomRob_params, defaultLow_params,
      defaultUp_params, evLow_params, evUp_params, alwLow_params, alwUp_params, untilLow_params,
      untilUp_params, andLow_params, andUp_params, orLow_params, orUp_params, impliesLow_params, impliesUp_params, inline_st,
      inline_setSt, and_self]
  | atom s k l r =>
    have h1 := inline_computeRob hs h0 (atom s k l r)
    simp only [substParams] at h1
    simp only [substParams, computeLow, computeUp, h1, map_bind', bind_map', map_ok', inl, atomRob_params, defaultLow_params,
      defaultUp_params, evLow_params, evUp_params, alwLow_params, alwUp_params, untilLow_params,
      untilUp_params, andLow_params, andUp_params, orLow_params, orUp_params, impliesLow_params, impliesUp_params, inline_st,
      inline_setSt, and_self]
  | not s c ih =>
    simp only [substParams, computeLow, computeUp, ih, map_bind', bind_map', map_ok', map_ite', inl, atomRob_params, defaultLow_params,
      defaultUp_params, evLow_params, evUp_params, alwLow_params, alwUp_params, untilLow_params,
      untilUp_params, andLow_params, andUp_params, orLow_params, orUp_params, impliesLow_params, impliesUp_params,
      inline_st, substParams, and_self]
  | untl s l I r ihl ihr =>
    simp only [substParams, computeLow, computeUp, ihl, ihr, map_bind', bind_map', map_ok', map_ite',
      inl, atomRob_params, defaultLow_params,
      defaultUp_params, evLow_params, evUp_params, alwLow_params, alwUp_params, untilLow_params,
      untilUp_params, andLow_params, andUp_params, orLow_params, orUp_params, impliesLow_params, impliesUp_params, inline_st, substParams, ivA_inline hs h0, ivB_inline hs h0, and_self]
  | ev s I c ih =>
    simp only [substParams, computeLow, computeUp, ih, map_bind', bind_map', map_ok', inl, atomRob_params, defaultLow_params,
      defaultUp_params, evLow_params, evUp_params, alwLow_params, alwUp_params, untilLow_params,
      untilUp_params, andLow_params, andUp_params, orLow_params, orUp_params, impliesLow_params, impliesUp_params,
      inline_st, substParams, ivA_inline hs h0, ivB_inline hs h0, and_self]
  | alw s I c ih =>
    simp only [substParams, computeLow, computeUp, ih, map_bind', bind_map', map_ok', inl, atomRob_params, defaultLow_params,
      defaultUp_params, evLow_params, evUp_params, alwLow_params, alwUp_params, untilLow_params,
      untilUp_params, andLow_params, andUp_params, orLow_params, orUp_params, impliesLow_params, impliesUp_params,
      inline_st, substParams, ivA_inline hs h0, ivB_inline hs h0, and_self]
  | _ s l r ihl ihr =>
    simp only [substParams, computeLow, computeUp, ihl, ihr, map_bind', bind_map', map_ok', inl, atomRob_params, defaultLow_params,
      defaultUp_params, evLow_params, evUp_params, alwLow_params, alwUp_params, untilLow_params,
      untilUp_params, andLow_params, andUp_params, orLow_params, orUp_params, impliesLow_params, impliesUp_params,
      inline_st, substParams, and_self]

end Tr

theorem inline_run3 {env : Env} {P' : Assoc ℚ} (hs : Tr.Sub P' env.params)
    (h0 : env.params.lookup "" = none) (T : Tr) :
    Monitor.run3 { env with params := P' } (substParams env.params T) =
      (Monitor.run3 env T).map fun r => (substParams env.params r.1, r.2) := by
  simp only [Monitor.run3, Tr.inline_computeRob hs h0, (Tr.inline_bounds hs h0 _).1,
    (Tr.inline_bounds hs h0 _).2, map_bind', bind_map', map_ok', Tr.inl]

end STLRom
