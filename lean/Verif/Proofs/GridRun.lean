import Verif.Proofs.Grid
import Verif.Proofs.SelectRun
import Verif.Spec.Rounded

/-!
# Rounded runs that are exact

In PREVIOUS mode, with times on a grid and margins that rounding keeps, the rounded run gives the
same as the exact one.
-/

namespace STLRom
namespace Fp
open Signal Spec

section
variable {rd : ℚ → ℚ} {B R h : ℚ} {G : ℚ → Prop}

theorem front_sim {z : Signal} {P : Sample → Prop} (hz : ∀ p ∈ z.samples, P p) :
    Sim (fun p => P p ∧ z.samples ≠ []) z.front z.front := by
  refine sim_refl ?_
  unfold Signal.front
  split
  · exact post_error
  · rename_i p r e
    exact post_ok ⟨hz p (by simp [e]), by simp [e]⟩

theorem front_any {z : Signal} : Sim (fun _ => z.samples ≠ []) z.front z.front :=
  sim_mono (fun _ h => h.2) (front_sim (P := fun _ => True) fun _ _ => trivial)

theorem append0_sim {z : Signal} (hz : SG rd G h z) {t v : ℚ} (ht : U G h t) (hv : rd v = v) :
    Sim (SG rd G h) (appendSample0 rd .PREVIOUS z t v) (z.appendSample0 .PREVIOUS t v) := by
  unfold appendSample0 Signal.appendSample0
  exact append_sim hz ht hv

theorem cell_time {row : List ℚ} {t : ℚ} (e : Tr.cell row 0 = .ok t) : t = rowTime row := by
  unfold Tr.cell at e
  unfold rowTime
  rw [List.getD_eq_getElem?_getD]
  split at e
  · cases e
  · rename_i v e'
    rw [e', ← Except.ok.inj e]
    rfl

theorem cell_val {row : List ℚ} {i : ℕ} {v : ℚ} (e : Tr.cell row i = .ok v) : v = row.getD i 0 := by
  unfold Tr.cell at e
  rw [List.getD_eq_getElem?_getD]
  split at e
  · cases e
  · rename_i v e'
    rw [e', ← Except.ok.inj e]
    rfl

theorem cell_sim {row : List ℚ} {i : ℕ} : Sim (fun _ => True) (Tr.cell row i) (Tr.cell row i) :=
  sim_refl fun _ _ => trivial

theorem sigRead_sim {i : ℕ} {stop : ℚ} : ∀ (rows : List (List ℚ)) (z : Signal) (td : ℕ) (t v : ℚ),
    (∀ row ∈ rows, U G h (rowTime row)) → (∀ row ∈ rows, rd (row.getD i 0) = row.getD i 0) →
    SG rd G h z → rd v = v →
    Sim (fun r => SG rd G h r.1 ∧ rd r.2.2.2 = r.2.2.2) (sigRead rd .PREVIOUS i stop rows z td t v)
      (Tr.sigRead .PREVIOUS i stop rows z td t v)
  | [], z, td, t, v, _, _, hz, hv => by simp only [sigRead, Tr.sigRead]; exact sim_ok ⟨hz, hv⟩
  | row :: rows, z, td, t, v, h1, h2, hz, hv => by
    simp only [sigRead, Tr.sigRead]
    refine sim_ite Iff.rfl (fun _ => ?_) fun _ => sim_ok ⟨hz, hv⟩
    refine sim_bind_ok cell_sim fun t' e1 _ => sim_bind_ok cell_sim fun v' e2 _ => ?_
    have ht : U G h t' := cell_time e1 ▸ h1 row (by simp)
    have hv' : rd v' = v' := by rw [cell_val e2]; exact h2 row (by simp)
    exact sim_bind (append0_sim hz ht hv') fun z' hz' => sigRead_sim rows z' _ _ _
      (fun r hr => h1 r (by simp [hr])) (fun r hr => h2 r (by simp [hr])) hz' hv'

theorem constRead_sim {v stop : ℚ} (hv : rd v = v) : ∀ (rows : List (List ℚ)) (z : Signal) (td : ℕ) (t : ℚ),
    (∀ row ∈ rows, U G h (rowTime row)) → SG rd G h z →
    Sim (fun r => SG rd G h r.1) (constRead rd .PREVIOUS v stop rows z td t)
      (Tr.constRead .PREVIOUS v stop rows z td t)
  | [], z, td, t, _, hz => by simp only [constRead, Tr.constRead]; exact sim_ok hz
  | row :: rows, z, td, t, h1, hz => by
    simp only [constRead, Tr.constRead]
    refine sim_ite Iff.rfl (fun _ => ?_) fun _ => sim_ok hz
    refine sim_bind_ok cell_sim fun t' e1 _ => ?_
    have ht : U G h t' := cell_time e1 ▸ h1 row (by simp)
    exact sim_bind (append0_sim hz ht hv) fun z' hz' => constRead_sim hv rows z' _ _
      (fun r hr => h1 r (by simp [hr])) hz'

theorem u_pos {t : ℚ} (ht : U G h t) : 0 ≤ h := (abs_nonneg t).trans ht.2

theorem leafTrim_sim (hc : Calc rd B R G) (hR : h ≤ R) {start stop : ℚ} (hs : U G h start) (he : U G h stop)
    {z : Signal} (hz : SG rd G h z) (t : ℚ) {v : ℚ} (hv : rd v = v) :
    Sim (SG rd G h) (leafTrim rd start stop z t v) (Tr.leafTrim start stop z t v) := by
  have h0 := u_pos hs
  unfold leafTrim Tr.leafTrim
  have hz' : SG rd G h (if stop < t then { z with endTime := stop } else z) := by
    split_ifs
    · exact ⟨hz.1, hz.2.1, he⟩
    · exact hz
  exact sim_ite Iff.rfl (fun _ => resize_sim hc h0 hR hz' hs (u_max hs hz'.2.2) hv)
    fun _ => resize_sim hc h0 hR hz' hz'.2.2 hz'.2.2 hv

theorem absLoop_sim (hc : Calc rd B R G) : ∀ (l : List Sample) (z : Signal), LG rd G h l → SG rd G h z →
    Sim (SG rd G h) (absLoop rd .PREVIOUS z l) (Tr.absLoop .PREVIOUS z l)
  | [], z, _, hz => by simp only [absLoop, Tr.absLoop]; exact sim_ok hz
  | p :: l, z, hl, hz => by
    simp only [absLoop, Tr.absLoop]
    have hp : rd |p.value| = |p.value| := by
      rcases abs_choice p.value with e | e <;> rw [e]
      · exact hl.head.1
      · exact hc.neg _ hl.head.1
    exact sim_bind (append0_sim hz hl.head.2.2 hp) fun z' hz' => absLoop_sim hc l z' hl.tail hz'

theorem binLoop_sim {f : ℚ → ℚ → ℚ} {g1 g2 : List ℚ → ℚ} : ∀ (q : List (ℚ × List ℚ)) (z : Signal),
    (∀ x ∈ q, rd (f (g1 x.2) (g2 x.2)) = f (g1 x.2) (g2 x.2)) → LG rd G h (sg g1 q) → SG rd G h z →
    Sim (SG rd G h) (binLoop rd .PREVIOUS f z (sg g1 q) (sg g2 q)) (Tr.binLoop .PREVIOUS f z (sg g1 q) (sg g2 q))
  | [], z, _, _, hz => by simp only [sg, List.map_nil, binLoop, Tr.binLoop]; exact sim_ok hz
  | x :: q, z, hf, hl, hz => by
    have hx := hf x (by simp)
    simp only [sg, List.map_cons] at hl
    simp only [sg, List.map_cons, binLoop, Tr.binLoop, hx]
    exact sim_bind (append0_sim hz hl.head.2.2 hx) fun z' hz' =>
      binLoop_sim q z' (fun y hy => hf y (by simp [hy])) hl.tail hz'

theorem atomLoop_sim {k : Cmp} {g1 g2 : List ℚ → ℚ} : ∀ (q : List (ℚ × List ℚ)) (z : Signal),
    (∀ x ∈ q, rd (margin k (g1 x.2) (g2 x.2)) = margin k (g1 x.2) (g2 x.2)) → LG rd G h (sg g1 q) →
    SG rd G h z →
    Sim (SG rd G h) (atomLoop rd .PREVIOUS k z (sg g1 q) (sg g2 q)) (Tr.atomLoop .PREVIOUS k z (sg g1 q) (sg g2 q))
  | [], z, _, _, hz => by simp only [sg, List.map_nil, atomLoop, Tr.atomLoop]; exact sim_ok hz
  | x :: q, z, hf, hl, hz => by
    have hx := hf x (by simp)
    simp only [sg, List.map_cons] at hl
    simp only [sg, List.map_cons, atomLoop, Tr.atomLoop]
    cases k with
    | less =>
      simp only [margin] at hx
      simp only [hx]
      exact sim_bind (append_sim hz hl.head.2.2 hx) fun z' hz' =>
        atomLoop_sim q z' (fun y hy => hf y (by simp [hy])) hl.tail hz'
    | greater =>
      simp only [margin] at hx
      simp only [hx]
      exact sim_bind (append_sim hz hl.head.2.2 hx) fun z' hz' =>
        atomLoop_sim q z' (fun y hy => hf y (by simp [hy])) hl.tail hz'

/-- The horizon and the signal of a node are on the grid. -/
def ZG (rd : ℚ → ℚ) (G : ℚ → Prop) (h : ℚ) (s : St) : Prop :=
  U G h s.start ∧ U G h s.stop ∧ SG rd G h s.z

/-- The same for all nodes of an expression. -/
def EG (rd : ℚ → ℚ) (G : ℚ → Prop) (h : ℚ) : Tr → Prop
  | .sig s _ _ _ | .const s _ _ _ => ZG rd G h s
  | .abs s c => ZG rd G h s ∧ EG rd G h c
  | .plus s l r | .minus s l r | .mult s l r => ZG rd G h s ∧ EG rd G h l ∧ EG rd G h r
  | _ => False

theorem EG.st {T : Tr} (e : EG rd G h T) : ZG rd G h T.st := by
  cases T with
  | sig | const => exact e
  | abs | plus | minus | mult => exact e.1
  | _ => exact e.elim

variable {env : Env} {n : ℕ}

/-- A run of an expression, for a condition `Q` under which the run samples rows of `q`. -/
theorem term_sim (hc : Calc rd B R G) (hp : env.ip = .PREVIOUS) (hR : h ≤ R)
    (hU : ∀ row ∈ env.data, U G h (rowTime row)) {Q : Tr → Prop} {q : List (ℚ × List ℚ)}
    (hq : ∀ x ∈ q, x.2 ∈ env.data) (habs : ∀ s c, Q (.abs s c) → Q c)
    (hplus : ∀ s l r, Q (.plus s l r) → Q l ∧ Q r) (hminus : ∀ s l r, Q (.minus s l r) → Q l ∧ Q r)
    (hmult : ∀ s l r, Q (.mult s l r) → Q l ∧ Q r)
    (hrun : ∀ T T' x, IsExpr n T → Q T → Tr.computeRob env T = .ok (T', x) → Rows env.params q T' ∧
      ∀ row, rowExpr env.params row T' = rowExpr env.params row T) :
    ∀ T : Tr, IsExpr n T → Q T → ExprKept rd env.data env.params T → EG rd G h T →
      Sim (fun r => EG rd G h r.1 ∧ ExprKept rd env.data env.params r.1) (computeRob rd env T) (T.computeRob env) := by
  intro T
  induction T with
  | sig s v m td =>
    rintro ⟨i, hi, hi0, hin⟩ hQ hk ⟨h1, h2, h3⟩
    obtain ⟨i, rfl⟩ : ∃ j, i = j + 1 := ⟨i - 1, by omega⟩
    simp only [ExprKept, rowExpr, hi, Option.getD_some] at hk
    simp only [computeRob, Tr.computeRob, sigRob, Tr.sigRob, hi, Option.getD_some, hp]
    refine sim_bind (Q := fun r => SG rd G h r.1) ?_ fun r hr => sim_ok ⟨⟨h1, h2, hr⟩, ?_⟩
    · cases td with
      | none => exact sim_error
      | some td =>
        refine sim_ite Iff.rfl (fun _ => sim_error) fun _ => ?_
        refine sim_bind (sigRead_sim _ _ _ _ _ (fun r hr => hU r (List.mem_of_mem_drop hr))
          (fun r hr => hk r (List.mem_of_mem_drop hr)) h3 hc.zero) ?_
        rintro ⟨z, td', t, v'⟩ ⟨a1, a2⟩
        dsimp only at a1 a2 ⊢
        exact sim_bind (leafTrim_sim hc hR h1 h2 a1 t a2) fun z' hz' => sim_bind front_any fun _ _ => sim_ok hz'
    · simpa only [ExprKept, rowExpr, hi, Option.getD_some] using hk
  | const s p v td =>
    rintro _ hQ hk ⟨h1, h2, h3⟩
    have hv : rd (Tr.constValue env.params p v) = Tr.constValue env.params p v := hk
    have hn : number env.params p (Tr.constValue env.params p v) = number env.params p v := by
      unfold number Tr.constValue
      split_ifs <;> rfl
    simp only [computeRob, Tr.computeRob, constRob, Tr.constRob, hp]
    refine sim_bind (Q := fun r => SG rd G h r.1) ?_ fun r hr => sim_ok ⟨⟨h1, h2, hr⟩, ?_⟩
    · cases td with
      | none => exact sim_error
      | some td =>
        refine sim_ite Iff.rfl (fun _ => sim_error) fun _ => ?_
        refine sim_bind (constRead_sim hv _ _ _ _ (fun r hr => hU r (List.mem_of_mem_drop hr)) h3) ?_
        rintro ⟨z, td', t⟩ a1
        dsimp only at a1 ⊢
        exact sim_bind (leafTrim_sim hc hR h1 h2 a1 t hv) fun z' hz' => sim_ok hz'
    · simp only [ExprKept, hn]; exact hk
  | abs s c ih =>
    rintro he hQ hk ⟨⟨h1, h2, h3⟩, h4⟩
    simp only [computeRob, Tr.computeRob, hp]
    refine sim_bind (ih he (habs _ _ hQ) hk h4) fun r hr => ?_
    exact sim_bind (absLoop_sim hc _ _ hr.1.st.2.2.1 h3) fun z hz => sim_bind front_any fun _ _ =>
      sim_ok ⟨⟨⟨h1, h2, hz⟩, hr.1⟩, hr.2⟩
  | plus s u w ih1 ih2 =>
    rintro he hQ hk ⟨⟨h1, h2, h3⟩, h4, h5⟩
    simp only [computeRob, Tr.computeRob, hp]
    refine sim_bind_ok (ih1 he.1 (hplus _ _ _ hQ).1 hk.2.1 h4) fun r er hr => ?_
    refine sim_bind_ok (ih2 he.2 (hplus _ _ _ hQ).2 hk.2.2 h5) fun r' er' hr' => ?_
    obtain ⟨a1, a2⟩ := hrun _ _ _ he.1 (hplus _ _ _ hQ).1 er
    obtain ⟨b1, b2⟩ := hrun _ _ _ he.2 (hplus _ _ _ hQ).2 er'
    have hl := hr.1.st.2.2.1
    have hk' : ∀ row ∈ env.data, rd (rowExpr env.params row r.1 + rowExpr env.params row r'.1) =
        rowExpr env.params row r.1 + rowExpr env.params row r'.1 := fun row hrow => by
      rw [a2, b2]; exact hk.1 row hrow
    rw [a1.samples] at hl ⊢
    rw [b1.samples]
    exact sim_bind (binLoop_sim q _ (fun x hx => hk' _ (hq x hx)) hl h3) fun z hz => sim_bind front_any fun _ _ =>
      sim_ok ⟨⟨⟨h1, h2, hz⟩, hr.1, hr'.1⟩, hk', hr.2, hr'.2⟩
  | minus s u w ih1 ih2 =>
    rintro he hQ hk ⟨⟨h1, h2, h3⟩, h4, h5⟩
    simp only [computeRob, Tr.computeRob, hp]
    refine sim_bind_ok (ih1 he.1 (hminus _ _ _ hQ).1 hk.2.1 h4) fun r er hr => ?_
    refine sim_bind_ok (ih2 he.2 (hminus _ _ _ hQ).2 hk.2.2 h5) fun r' er' hr' => ?_
    obtain ⟨a1, a2⟩ := hrun _ _ _ he.1 (hminus _ _ _ hQ).1 er
    obtain ⟨b1, b2⟩ := hrun _ _ _ he.2 (hminus _ _ _ hQ).2 er'
    have hl := hr.1.st.2.2.1
    have hk' : ∀ row ∈ env.data, rd (rowExpr env.params row r.1 - rowExpr env.params row r'.1) =
        rowExpr env.params row r.1 - rowExpr env.params row r'.1 := fun row hrow => by
      rw [a2, b2]; exact hk.1 row hrow
    rw [a1.samples] at hl ⊢
    rw [b1.samples]
    exact sim_bind (binLoop_sim q _ (fun x hx => hk' _ (hq x hx)) hl h3) fun z hz => sim_bind front_any fun _ _ =>
      sim_ok ⟨⟨⟨h1, h2, hz⟩, hr.1, hr'.1⟩, hk', hr.2, hr'.2⟩
  | mult s u w ih1 ih2 =>
    rintro he hQ hk ⟨⟨h1, h2, h3⟩, h4, h5⟩
    simp only [computeRob, Tr.computeRob, hp]
    refine sim_bind_ok (ih1 he.1 (hmult _ _ _ hQ).1 hk.2.1 h4) fun r er hr => ?_
    refine sim_bind_ok (ih2 he.2 (hmult _ _ _ hQ).2 hk.2.2 h5) fun r' er' hr' => ?_
    obtain ⟨a1, a2⟩ := hrun _ _ _ he.1 (hmult _ _ _ hQ).1 er
    obtain ⟨b1, b2⟩ := hrun _ _ _ he.2 (hmult _ _ _ hQ).2 er'
    have hl := hr.1.st.2.2.1
    have hk' : ∀ row ∈ env.data, rd (rowExpr env.params row r.1 * rowExpr env.params row r'.1) =
        rowExpr env.params row r.1 * rowExpr env.params row r'.1 := fun row hrow => by
      rw [a2, b2]; exact hk.1 row hrow
    rw [a1.samples] at hl ⊢
    rw [b1.samples]
    exact sim_bind (binLoop_sim q _ (fun x hx => hk' _ (hq x hx)) hl h3) fun z hz => sim_bind front_any fun _ _ =>
      sim_ok ⟨⟨⟨h1, h2, hz⟩, hr.1, hr'.1⟩, hk', hr.2, hr'.2⟩
  | _ => intro he; exact he.elim

/-! ## Formulas -/

/-- The horizon and the signals of a node are on the grid. -/
def NG (rd : ℚ → ℚ) (G : ℚ → Prop) (h w : ℚ) (s : St) : Prop :=
  0 ≤ w ∧ U G h s.start ∧ U G h s.stop ∧ SG rd G (h + w) s.z ∧ SG rd G (h + w) s.zlow ∧ SG rd G (h + w) s.zup

/-- The bounds of an interval are on the grid. -/
def IG (G : ℚ → Prop) (q : ℚ) (P : Assoc ℚ) (I : Ival) : Prop :=
  U G q (Tr.ivA P I) ∧ U G q (Tr.ivB P I) ∧ U G q (Tr.ivB P I - Tr.ivA P I)

/-- A formula whose margins at the rows are kept, and whose signals are on the grid, up to `h + w`. -/
def TG (rd : ℚ → ℚ) (G : ℚ → Prop) (n : ℕ) (D : List (List ℚ)) (P : Assoc ℚ) (K : ℚ) : ℚ → ℚ → Tr → Prop
  | h, w, .atom s k l r => NG rd G h w s ∧
      (∀ row ∈ D, rd (margin k (rowExpr P row l) (rowExpr P row r)) =
        margin k (rowExpr P row l) (rowExpr P row r)) ∧
      IsExpr n l ∧ IsExpr n r ∧ ExprKept rd D P l ∧ ExprKept rd D P r ∧ EG rd G h l ∧ EG rd G h r ∧
      ((∃ S E, Fresh P S E l ∧ Fresh P S E r) ∨
        ∃ q : List (ℚ × List ℚ), (∀ x ∈ q, x.2 ∈ D) ∧ EInv n D l ∧ EInv n D r ∧ Rows P q l ∧ Rows P q r)
  | h, w, .not s c => NG rd G h w s ∧ TG rd G n D P K h w c
  | h, w, .and s l r | h, w, .or s l r | h, w, .implies s l r =>
      NG rd G h w s ∧ TG rd G n D P K h w l ∧ TG rd G n D P K h w r
  | h, w, .ev s I c | h, w, .alw s I c =>
      NG rd G h w s ∧ ∃ q w', IG G q P I ∧ w' + K * q ≤ w ∧ TG rd G n D P K (h + q) w' c
  | h, w, .untl s l I r => NG rd G h w s ∧ ∃ q w', IG G q P I ∧ w' + K * q ≤ w ∧
      TG rd G n D P K (h + q) w' l ∧ TG rd G n D P K (h + q) w' r
  | _, _, _ => False

theorem NG.mono {w w2 : ℚ} {s : St} (e : NG rd G h w s) (hw : w ≤ w2) : NG rd G h w2 s := by
  obtain ⟨a, b, c, d, e, f⟩ := e
  exact ⟨a.trans hw, b, c, d.mono (by linarith), e.mono (by linarith), f.mono (by linarith)⟩

variable {D : List (List ℚ)} {P : Assoc ℚ} {K w : ℚ}

theorem TG.st {T : Tr} (e : TG rd G n D P K h w T) : NG rd G h w T.st := by
  cases T with
  | atom | not | ev | alw | and | or | implies | untl => exact e.1
  | _ => exact e.elim

theorem TG.mono {T : Tr} {w2 : ℚ} (hw : w ≤ w2) (e : TG rd G n D P K h w T) : TG rd G n D P K h w2 T := by
  induction T generalizing h w w2 with
  | atom => exact ⟨e.1.mono hw, e.2⟩
  | not _ _ ih => exact ⟨e.1.mono hw, ih hw e.2⟩
  | and _ _ _ i j | or _ _ _ i j | implies _ _ _ i j => exact ⟨e.1.mono hw, i hw e.2.1, j hw e.2.2⟩
  | ev _ _ _ ih | alw _ _ _ ih =>
    obtain ⟨a, q, w', b, c, d⟩ := e
    exact ⟨a.mono hw, q, w', b, c.trans hw, d⟩
  | untl _ _ _ _ i j =>
    obtain ⟨a, q, w', b, c, d⟩ := e
    exact ⟨a.mono hw, q, w', b, c.trans hw, d⟩
  | _ => exact e.elim

theorem tg_setSt {T : Tr} {s : St} (e : TG rd G n D P K h w T) (hs : NG rd G h w s) :
    TG rd G n D P K h w (T.setSt s) := by
  cases T with
  | atom | not | ev | alw | and | or | implies | untl => exact ⟨hs, e.2⟩
  | _ => exact e.elim

theorem NG.setZ {s : St} (e : NG rd G h w s) {z : Signal} (hz : SG rd G (h + w) z) : NG rd G h w { s with z := z } :=
  ⟨e.1, e.2.1, e.2.2.1, hz, e.2.2.2.2⟩

theorem NG.setLow {s : St} (e : NG rd G h w s) {z : Signal} (hz : SG rd G (h + w) z) :
    NG rd G h w { s with zlow := z } := ⟨e.1, e.2.1, e.2.2.1, e.2.2.2.1, hz, e.2.2.2.2.2⟩

theorem NG.setUp {s : St} (e : NG rd G h w s) {z : Signal} (hz : SG rd G (h + w) z) :
    NG rd G h w { s with zup := z } := ⟨e.1, e.2.1, e.2.2.1, e.2.2.2.1, e.2.2.2.2.1, hz⟩

theorem NG.start {s : St} (e : NG rd G h w s) : U G (h + w) s.start := e.2.1.mono (by linarith [e.1])

theorem NG.stop {s : St} (e : NG rd G h w s) : U G (h + w) s.stop := e.2.2.1.mono (by linarith [e.1])

theorem NG.pos {s : St} (e : NG rd G h w s) : 0 ≤ h + w := u_pos e.start

/-- What holds after a run. -/
def After3 (rd : ℚ → ℚ) (G : ℚ → Prop) (n : ℕ) (env : Env) (h w : ℚ) (r : Tr × ℚ) : Prop :=
  TG rd G n env.data env.params 5 h w r.1 ∧ r.1.st.z.samples ≠ []

theorem atom_sim (hc : Calc rd B R G) (hD : WellShaped n env.data) (hp : env.ip = .PREVIOUS)
    (hs : env.sem = .SPACE) (hR : 2 * (h + w) ≤ R) (hU : ∀ row ∈ env.data, U G h (rowTime row))
    {s : St} {k : Cmp} {l r : Tr} (e : TG rd G n env.data env.params K h w (.atom s k l r)) :
    Sim (After3 rd G n env h w) (computeRob rd env (.atom s k l r)) (Tr.computeRob env (.atom s k l r)) := by
  obtain ⟨h1, h2, h3, h4, h5, h6, h7, h8, h9⟩ := e
  have hle : h ≤ h + w := by linarith [h1.1]
  have hR' : h ≤ R := by linarith [h1.pos]
  simp only [computeRob, Tr.computeRob]
  have hb : ∃ q : List (ℚ × List ℚ), (∀ x ∈ q, x.2 ∈ env.data) ∧
      Sim (fun a => EG rd G h a.1 ∧ ExprKept rd env.data env.params a.1) (computeRob rd env l) (l.computeRob env) ∧
      Sim (fun a => EG rd G h a.1 ∧ ExprKept rd env.data env.params a.1) (computeRob rd env r) (r.computeRob env) ∧
      ∀ l' x r' y, l.computeRob env = .ok (l', x) → r.computeRob env = .ok (r', y) →
        EInv n env.data l' ∧ EInv n env.data r' ∧ Rows env.params q l' ∧ Rows env.params q r' ∧
        IsExpr n l' ∧ IsExpr n r' ∧ (∀ row, rowExpr env.params row l' = rowExpr env.params row l) ∧
        ∀ row, rowExpr env.params row r' = rowExpr env.params row r := by
    rcases h9 with ⟨S, E, f1, f2⟩ | ⟨q, q1, q2, q3, q4, q5⟩
    · obtain ⟨q, q1, q2⟩ := term_rows (P := env.params) (S := S) (E := E) hD hp
      have key := term_sim (n := n) hc hp hR' hU (Q := Fresh env.params S E) q1 (fun _ _ a => a.2) (fun _ _ _ a => a.2)
        (fun _ _ _ a => a.2) (fun _ _ _ a => a.2) fun T T' x a b c => ⟨(q2 a b c).2.1, (q2 a b c).2.2.2.2⟩
      refine ⟨q, q1, key l h3 f1 h5 h7, key r h4 f2 h6 h8, fun l' x r' y e1 e2 => ?_⟩
      obtain ⟨a1, a2, _, a3, a4⟩ := q2 h3 f1 e1
      obtain ⟨b1, b2, _, b3, b4⟩ := q2 h4 f2 e2
      exact ⟨a1, b1, a2, b2, a3, b3, a4, b4⟩
    · have key := term_sim (n := n) hc hp hR' hU (Q := fun T => EInv n env.data T ∧ Rows env.params q T) q1
        (fun _ _ a => ⟨a.1.2, a.2.2⟩) (fun _ _ _ a => ⟨⟨a.1.2.2.1, a.2.2.1⟩, a.1.2.2.2, a.2.2.2⟩)
        (fun _ _ _ a => ⟨⟨a.1.2.2.1, a.2.2.1⟩, a.1.2.2.2, a.2.2.2⟩)
        (fun _ _ _ a => ⟨⟨a.1.2.2.1, a.2.2.1⟩, a.1.2.2.2, a.2.2.2⟩)
        fun T T' x a b c => ⟨(term_again hD hp a b.1 b.2 c).2.1, (term_again hD hp a b.1 b.2 c).2.2.2⟩
      refine ⟨q, q1, key l h3 ⟨q2, q4⟩ h5 h7, key r h4 ⟨q3, q5⟩ h6 h8, fun l' x r' y e1 e2 => ?_⟩
      obtain ⟨a1, a2, a3, a4⟩ := term_again hD hp h3 q2 q4 e1
      obtain ⟨b1, b2, b3, b4⟩ := term_again hD hp h4 q3 q5 e2
      exact ⟨a1, b1, a2, b2, a3, b3, a4, b4⟩
  obtain ⟨q, q1, m1, m2, q2⟩ := hb
  refine sim_bind_ok m1 ?_
  rintro ⟨l', x⟩ e1 ⟨hl1, hl2⟩
  refine sim_bind_ok m2 ?_
  rintro ⟨r', y⟩ e2 ⟨hr1, hr2⟩
  dsimp only at hl1 hl2 hr1 hr2 ⊢
  obtain ⟨k1, k2, k3, k4, k5, k6, k7, k8⟩ := q2 _ _ _ _ e1 e2
  have hm : ∀ row ∈ env.data, rd (margin k (rowExpr env.params row l') (rowExpr env.params row r')) =
      margin k (rowExpr env.params row l') (rowExpr env.params row r') := fun row hrow => by
    rw [k7, k8]; exact h2 row hrow
  refine sim_bind (Q := SG rd G (h + w)) ?_ fun z hz => sim_bind front_any fun p hne =>
    sim_ok ⟨⟨h1.setZ hz, hm, k5, k6, hl2, hr2, hl1, hr1, Or.inr ⟨q, q1, k1, k2, k3, k4⟩⟩, hne⟩
  have hll := hl1.st.2.2.1
  rw [k3.samples] at hll
  unfold atomRob Tr.atomRob
  rw [hp, hs, k3.samples, k4.samples]
  exact sim_bind (atomLoop_sim q _ (fun x hx => hm _ (q1 x hx)) (hll.mono hle) h1.2.2.2.1) fun z hz =>
    sim_ok ⟨hz.1, hz.2.1, hl1.st.2.2.2.2.mono hle⟩

theorem implies_sim {r : ℚ} (hc : Calc rd B R G) {x y : Signal} (hx : SG rd G r x) (hy : SG rd G r y) :
    Sim (SG rd G r) (computeImpliesM rd x y) (Signal.computeImpliesM x y) := by
  unfold computeImpliesM Signal.computeImpliesM
  exact computeOrM_sim hc (sg_not hc hx) hy

theorem rob_sim (hc : Calc rd env.B R G) (hD : WellShaped n env.data) (hp : env.ip = .PREVIOUS)
    (hs : env.sem = .SPACE) : ∀ {T : Tr} {h w : ℚ}, 2 * (h + w) ≤ R →
      (∀ row ∈ env.data, U G h (rowTime row)) → TG rd G n env.data env.params 9 h w T →
      Sim (After3 rd G n env h w) (computeRob rd env T) (T.computeRob env) := by
  intro T
  induction T with
  | atom s k l r => exact fun hR hU e => atom_sim hc hD hp hs hR hU e
  | not s c ih =>
    rintro h w hR hU ⟨h1, h2⟩
    simp only [computeRob, Tr.computeRob]
    refine sim_bind (ih hR hU h2) fun c' hc' => ?_
    have hz := sg_not hc hc'.1.st.2.2.2.1
    exact sim_bind front_any fun p hq => sim_ok ⟨⟨h1.setZ hz, hc'.1⟩, hq⟩
  | and s l r ih1 ih2 =>
    rintro h w hR hU ⟨h1, h2, h3⟩
    simp only [computeRob, Tr.computeRob, andRob, Tr.andRob]
    refine sim_bind (ih1 hR hU h2) fun l' hl => sim_bind (ih2 hR hU h3) fun r' hr => ?_
    have a := hl.1.st.2.2.2.1
    have b := hr.1.st.2.2.2.1
    refine sim_bind (computeAndM_sim (r := h + w) hc ⟨a.1, a.2.1, u_max a.2.2 b.2.2⟩
      ⟨b.1, b.2.1, u_max a.2.2 b.2.2⟩) fun z hz => ?_
    exact sim_bind front_any fun p hq => sim_ok ⟨⟨h1.setZ hz, hl.1, hr.1⟩, hq⟩
  | or s l r ih1 ih2 =>
    rintro h w hR hU ⟨h1, h2, h3⟩
    simp only [computeRob, Tr.computeRob, orRob, Tr.orRob]
    refine sim_bind (ih1 hR hU h2) fun l' hl => sim_bind (ih2 hR hU h3) fun r' hr => ?_
    have a := hl.1.st.2.2.2.1
    have b := hr.1.st.2.2.2.1
    refine sim_bind (computeOrM_sim (r := h + w) hc ⟨a.1, a.2.1, u_max a.2.2 b.2.2⟩
      ⟨b.1, b.2.1, u_max a.2.2 b.2.2⟩) fun z hz => ?_
    exact sim_bind front_any fun p hq => sim_ok ⟨⟨h1.setZ hz, hl.1, hr.1⟩, hq⟩
  | implies s l r ih1 ih2 =>
    rintro h w hR hU ⟨h1, h2, h3⟩
    simp only [computeRob, Tr.computeRob]
    refine sim_bind (ih1 hR hU h2) fun l' hl => sim_bind (ih2 hR hU h3) fun r' hr => ?_
    refine sim_bind (implies_sim hc hl.1.st.2.2.2.1 hr.1.st.2.2.2.1) fun z hz => ?_
    exact sim_bind front_any fun p hq => sim_ok ⟨⟨h1.setZ hz, hl.1, hr.1⟩, hq⟩
  | ev s I c ih =>
    rintro h w hR hU ⟨h1, q, w', ⟨ha, hb, hba⟩, hw, h2⟩
    have hq := u_pos ha
    have hw' := h2.st.1
    have hh := u_pos h1.2.1
    simp only [computeRob, Tr.computeRob]
    refine sim_bind (ih (by linarith) (fun r hr => (hU r hr).mono (by linarith)) h2) fun c' hc' => ?_
    have hz := hc'.1.st.2.2.2.1
    refine sim_bind (Q := fun r => SG rd G (h + w) r.1 ∧ SG rd G (h + q + (w' + 4 * q)) r.2) ?_ fun r hr =>
      sim_bind front_any fun p hne => sim_ok ⟨⟨h1.setZ hr.1, q, w' + 4 * q, ⟨ha, hb, hba⟩, by linarith,
        tg_setSt (hc'.1.mono (by linarith)) (NG.setZ (hc'.1.st.mono (by linarith)) hr.2)⟩, hne⟩
    unfold evRob Tr.evRob
    refine sim_bind (timedEv_sim hc h2.st.pos hq ha hba (by linarith) hz le_rfl fun h => absurd h hc'.2) fun z hz' => ?_
    have het : U G (h + q + w' + 3 * q) (min z.endTime s.stop) := u_min hz'.2.2 (h1.2.2.1.mono (by linarith))
    have hetb := het.sub hc hb
    dsimp only
    rw [hetb.fix hc (by linarith)]
    refine sim_bind (resize_sim (r := h + q + (w' + 4 * q)) hc (by linarith) (by linarith) (hz.mono (by linarith))
      (hetb.mono (by linarith)) (hz.2.2.mono (by linarith)) hc.zero) fun zc hzc => ?_
    refine sim_bind (resize_sim hc (by linarith) (by linarith) hz' (h1.2.1.mono (by linarith))
      (u_max (h1.2.1.mono (by linarith)) het) hc.zero) fun z' h' => sim_ok ⟨h'.mono (by linarith), hzc⟩
  | alw s I c ih =>
    rintro h w hR hU ⟨h1, q, w', ⟨ha, hb, hba⟩, hw, h2⟩
    have hq := u_pos ha
    have hw' := h2.st.1
    have hh := u_pos h1.2.1
    simp only [computeRob, Tr.computeRob]
    refine sim_bind (ih (by linarith) (fun r hr => (hU r hr).mono (by linarith)) h2) fun c' hc' => ?_
    have hz := hc'.1.st.2.2.2.1
    refine sim_bind (Q := SG rd G (h + w)) ?_ fun r hr =>
      sim_bind front_any fun p hne => sim_ok ⟨⟨h1.setZ hr, q, w', ⟨ha, hb, hba⟩, by linarith, hc'.1⟩, hne⟩
    unfold alwRob Tr.alwRob
    refine sim_bind (timedGlob_sim (o := h + w) hc h2.st.pos hq ha hba (by linarith) hz (by linarith)
      fun _ => h1.2.2.2.1) fun z hz' => ?_
    exact resize_sim hc h1.pos (by linarith) hz' h1.start (u_max h1.start (u_min hz'.2.2 h1.stop)) hc.zero
  | untl s l I r ih1 ih2 =>
    rintro h w hR hU ⟨h1, q, w', ⟨ha, hb, hba⟩, hw, h2, h3⟩
    have hq := u_pos ha
    have hw' := h2.st.1
    have hh := u_pos h1.2.1
    simp only [computeRob, Tr.computeRob]
    refine sim_bind (ih1 (by linarith) (fun r hr => (hU r hr).mono (by linarith)) h2) fun l' hl => ?_
    refine sim_bind (ih2 (by linarith) (fun r hr => (hU r hr).mono (by linarith)) h3) fun r' hr => ?_
    refine sim_bind (Q := SG rd G (h + w)) ?_ fun z hz =>
      sim_bind front_any fun p hne => sim_ok ⟨⟨h1.setZ hz, q, w', ⟨ha, hb, hba⟩, by linarith, hl.1, hr.1⟩, hne⟩
    unfold untilRob Tr.untilRob
    refine sim_bind (timedUntil_sim (o := h + w) hc h2.st.pos hq ha hba (by linarith) hl.1.st.2.2.2.1
      hr.1.st.2.2.2.1 (by linarith) fun _ => h1.2.2.2.1) fun z hz' => ?_
    exact resize_sim hc h1.pos (by linarith) hz' (u_zero hc h1.pos) hz'.2.2 hc.zero
  | _ => intro h w _ _ e; exact e.elim

theorem appendIfEmpty_sim {ip : Interpol} (hp : ip = .PREVIOUS) {z : Signal} (hz : SG rd G h z) {t c : ℚ}
    (ht : U G h t) (hcv : rd c = c) : Sim (SG rd G h) (appendIfEmpty rd ip z t c) (Tr.appendIfEmpty ip z t c) := by
  unfold appendIfEmpty Tr.appendIfEmpty
  rw [hp]
  exact sim_ite Iff.rfl (fun _ => append0_sim hz ht hcv) fun _ => sim_ok hz

/-- What holds after a run of the bounds. -/
def After5 (rd : ℚ → ℚ) (G : ℚ → Prop) (n : ℕ) (env : Env) (h w : ℚ) (r : Tr × ℚ) : Prop :=
  TG rd G n env.data env.params 5 h w r.1

/-- The end of a bound's signal is cut to the horizon. -/
theorem u_clip {s e t : ℚ} (hs : U G h s) (he : U G h e) (ht : U G R t) (hR : h ≤ R) :
    U G R (min t e) ∧ (s ≤ min t e → U G h (min t e)) ∧ U G h (max s (min t e)) := by
  have h1 : U G R (min t e) := u_min ht (he.mono hR)
  have h2 : s ≤ min t e → U G h (min t e) := fun hle => ⟨h1.1, abs_le.2
    ⟨(abs_le.1 hs.2).1.trans hle, (min_le_right _ _).trans (abs_le.1 he.2).2⟩⟩
  refine ⟨h1, h2, ?_⟩
  rcases le_total s (min t e) with hle | hle
  · rw [max_eq_right hle]; exact h2 hle
  · rw [max_eq_left hle]; exact hs

theorem low_up_sim (hc : Calc rd env.B R G) (hD : WellShaped n env.data) (hp : env.ip = .PREVIOUS)
    (hs : env.sem = .SPACE) : ∀ {T : Tr} {h w : ℚ}, 2 * (h + w) ≤ R →
      (∀ row ∈ env.data, U G h (rowTime row)) → TG rd G n env.data env.params 5 h w T →
      Sim (After5 rd G n env h w) (computeLow rd env T) (T.computeLow env) ∧
      Sim (After5 rd G n env h w) (computeUp rd env T) (T.computeUp env) := by
  have two : ∀ {r : ℚ} {z : Signal} {s t v c : ℚ}, r ≤ R → SG rd G r z → U G r s → U G r t → rd v = v → rd c = c →
      Sim (SG rd G r) (resize rd z s t v >>= fun z => appendIfEmpty rd env.ip z s c)
        (z.resize s t v >>= fun z => Tr.appendIfEmpty env.ip z s c) := fun hr hz hu ht hv hcv =>
    sim_bind (resize_sim hc (u_pos hu) hr hz hu ht hv) fun z' hz' => appendIfEmpty_sim hp hz' hu hcv
  have tmp : ∀ {r : ℚ} {z : Signal} {s t c : ℚ}, r ≤ R → SG rd G r z → U G r s → U G R t → (s ≤ t → U G r t) → rd c = c →
      Sim (fun a : Signal × ℚ => SG rd G r a.1)
        (resize rd z s t 0 >>= fun z => appendIfEmpty rd env.ip z s c >>= fun z => z.front >>= fun p =>
          Except.ok (z, p.value))
        (z.resize s t 0 >>= fun z => Tr.appendIfEmpty env.ip z s c >>= fun z => z.front >>= fun p =>
          Except.ok (z, p.value)) := fun hr hz hu ht ht' hcv =>
    sim_bind (resize_sim' hc (u_pos hu) hr hz hu ht ht' hc.zero) fun z' hz' =>
      sim_bind (appendIfEmpty_sim hp hz' hu hcv) fun z'' h'' => sim_bind front_any fun p hq => sim_ok h''
  intro T
  induction T with
  | atom s k l r =>
    intro h w hR hU e
    constructor
    · simp only [computeLow, Tr.computeLow]
      refine sim_bind (atom_sim hc hD hp hs hR hU e) fun T' hT => ?_
      have hn := hT.1.st
      refine sim_bind (Q := SG rd G (h + w)) ?_ fun z hz =>
        sim_bind front_any fun p hq => sim_ok (tg_setSt hT.1 (hn.setLow hz))
      unfold defaultLow Tr.defaultLow
      rw [hp]
      exact sim_ite Iff.rfl (fun _ => append0_sim hn.2.2.2.2.1 hn.start hc.negB) fun _ => sim_ok hn.2.2.2.1
    · simp only [computeUp, Tr.computeUp]
      refine sim_bind (atom_sim hc hD hp hs hR hU e) fun T' hT => ?_
      have hn := hT.1.st
      refine sim_bind (Q := SG rd G (h + w)) ?_ fun z hz =>
        sim_bind front_any fun p hq => sim_ok (tg_setSt hT.1 (hn.setUp hz))
      unfold defaultUp Tr.defaultUp
      rw [hp]
      exact sim_ite Iff.rfl (fun _ => append0_sim hn.2.2.2.2.2 hn.start hc.negB) fun _ => sim_ok hn.2.2.2.1
  | not s c ih =>
    rintro h w hR hU ⟨h1, h2⟩
    constructor
    · simp only [computeLow, Tr.computeLow, hp]
      refine sim_bind (ih hR hU h2).2 fun c' hc' => ?_
      refine sim_ite Iff.rfl (fun _ => ?_) fun _ => ?_
      · exact sim_bind (append0_sim h1.2.2.2.2.1 h1.start hc.negB) fun z hz => sim_ok ⟨h1.setLow hz, hc'⟩
      · have hz := sg_not hc hc'.st.2.2.2.2.2
        exact sim_bind front_any fun p hq => sim_ok ⟨h1.setLow hz, hc'⟩
    · simp only [computeUp, Tr.computeUp, hp]
      refine sim_bind (ih hR hU h2).1 fun c' hc' => ?_
      refine sim_ite Iff.rfl (fun _ => ?_) fun _ => ?_
      · exact sim_bind (append0_sim h1.2.2.2.2.2 h1.start hc.big) fun z hz => sim_ok ⟨h1.setUp hz, hc'⟩
      · have hz := sg_not hc hc'.st.2.2.2.2.1
        exact sim_bind front_any fun p hq => sim_ok ⟨h1.setUp hz, hc'⟩
  | and s l r ih1 ih2 =>
    rintro h w hR hU ⟨h1, h2, h3⟩
    have hr' : h + w ≤ R := by linarith [h1.pos]
    constructor
    · simp only [computeLow, Tr.computeLow]
      refine sim_bind (ih1 hR hU h2).1 fun l' hl => sim_bind (ih2 hR hU h3).1 fun r' hr => ?_
      have a := hl.st.2.2.2.2.1
      have b := hr.st.2.2.2.2.1
      refine sim_bind (Q := SG rd G (h + w)) ?_ fun z hz =>
        sim_bind front_any fun p hq => sim_ok ⟨h1.setLow hz, hl, hr⟩
      unfold andLow Tr.andLow
      exact sim_bind (computeAndM_sim hc a b) fun z hz => two hr' hz h1.start (u_min a.2.2 b.2.2) hc.negB hc.negB
    · simp only [computeUp, Tr.computeUp]
      refine sim_bind (ih1 hR hU h2).2 fun l' hl => sim_bind (ih2 hR hU h3).2 fun r' hr => ?_
      have a := hl.st.2.2.2.2.2
      have b := hr.st.2.2.2.2.2
      refine sim_bind (Q := SG rd G (h + w)) ?_ fun z hz =>
        sim_bind front_any fun p hq => sim_ok ⟨h1.setUp hz, hl, hr⟩
      unfold andUp Tr.andUp
      exact sim_bind (computeAndM_sim hc a b) fun z hz => two hr' hz h1.start hz.2.2 hc.big hc.big
  | or s l r ih1 ih2 =>
    rintro h w hR hU ⟨h1, h2, h3⟩
    have hr' : h + w ≤ R := by linarith [h1.pos]
    constructor
    · simp only [computeLow, Tr.computeLow]
      refine sim_bind (ih1 hR hU h2).1 fun l' hl => sim_bind (ih2 hR hU h3).1 fun r' hr => ?_
      have a := hl.st.2.2.2.2.1
      have b := hr.st.2.2.2.2.1
      refine sim_bind (Q := SG rd G (h + w)) ?_ fun z hz =>
        sim_bind front_any fun p hq => sim_ok ⟨h1.setLow hz, hl, hr⟩
      unfold orLow Tr.orLow
      exact sim_bind (computeOrM_sim hc a b) fun z hz => two hr' hz h1.start hz.2.2 hc.negB hc.negB
    · simp only [computeUp, Tr.computeUp]
      refine sim_bind (ih1 hR hU h2).2 fun l' hl => sim_bind (ih2 hR hU h3).2 fun r' hr => ?_
      have a := hl.st.2.2.2.2.2
      have b := hr.st.2.2.2.2.2
      refine sim_bind (Q := SG rd G (h + w)) ?_ fun z hz =>
        sim_bind front_any fun p hq => sim_ok ⟨h1.setUp hz, hl, hr⟩
      unfold orUp Tr.orUp
      exact sim_bind (computeOrM_sim hc a b) fun z hz => two hr' hz h1.start (u_min a.2.2 b.2.2) hc.big hc.big
  | implies s l r ih1 ih2 =>
    rintro h w hR hU ⟨h1, h2, h3⟩
    have hr' : h + w ≤ R := by linarith [h1.pos]
    constructor
    · simp only [computeLow, Tr.computeLow]
      refine sim_bind (ih1 hR hU h2).2 fun l' hl => sim_bind (ih2 hR hU h3).1 fun r' hr => ?_
      have a := sg_not hc hl.st.2.2.2.2.2
      have b := hr.st.2.2.2.2.1
      refine sim_bind (Q := SG rd G (h + w)) ?_ fun z hz =>
        sim_bind front_any fun p hq => sim_ok ⟨h1.setLow hz, hl, hr⟩
      unfold impliesLow Tr.impliesLow
      exact sim_bind (computeOrM_sim hc a b) fun z hz => two hr' hz h1.start hz.2.2 hc.negB hc.negB
    · simp only [computeUp, Tr.computeUp]
      refine sim_bind (ih1 hR hU h2).1 fun l' hl => sim_bind (ih2 hR hU h3).2 fun r' hr => ?_
      have a := sg_not hc hl.st.2.2.2.2.1
      have b := hr.st.2.2.2.2.2
      refine sim_bind (Q := SG rd G (h + w)) ?_ fun z hz =>
        sim_bind front_any fun p hq => sim_ok ⟨h1.setUp hz, hl, hr⟩
      unfold impliesUp Tr.impliesUp
      exact sim_bind (computeOrM_sim hc a b) fun z hz => two hr' hz h1.start (u_min a.2.2 b.2.2) hc.big hc.big
  | ev s I c ih =>
    rintro h w hR hU ⟨h1, q, w', ⟨ha, hb, hba⟩, hw, h2⟩
    have hq := u_pos ha
    have hw' := h2.st.1
    have hh := u_pos h1.2.1
    have ih := ih (h := h + q) (w := w') (by linarith) (fun r hr => (hU r hr).mono (by linarith)) h2
    constructor
    · simp only [computeLow, Tr.computeLow]
      refine sim_bind ih.1 fun c' hc' => ?_
      refine sim_bind (Q := fun a => SG rd G (h + w) a.1) ?_ fun z hz =>
        sim_ok ⟨h1.setLow hz, q, w', ⟨ha, hb, hba⟩, hw, hc'⟩
      unfold evLow Tr.evLow
      refine sim_ite Iff.rfl (fun _ => ?_) fun _ => ?_
      · rw [hp]
        exact sim_bind (append0_sim h1.2.2.2.2.1 h1.start hc.negB) fun z hz => sim_ok hz
      · refine sim_bind (timedEv_sim (o := h + w) hc h2.st.pos hq ha hba (by linarith) hc'.st.2.2.2.2.1 (by linarith)
          fun _ => h1.2.2.2.2.1) fun z hz => ?_
        have hm := (u_clip h1.start h1.stop (hz.2.2.mono (by linarith)) (by linarith : h + w ≤ R)).2.2
        exact tmp (by linarith) hz h1.start (hm.mono (by linarith)) (fun _ => hm) hc.negB
    · simp only [computeUp, Tr.computeUp]
      refine sim_bind ih.2 fun c' hc' => ?_
      refine sim_bind (Q := fun a => SG rd G (h + w) a.1) ?_ fun z hz =>
        sim_ok ⟨h1.setUp hz, q, w', ⟨ha, hb, hba⟩, hw, hc'⟩
      unfold evUp Tr.evUp
      refine sim_ite Iff.rfl (fun _ => ?_) fun _ => ?_
      · rw [hp]
        exact sim_bind (append0_sim h1.2.2.2.2.2 h1.start hc.big) fun z hz => sim_ok hz
      · refine sim_bind (timedEv_sim (o := h + w) hc h2.st.pos hq ha hba (by linarith) hc'.st.2.2.2.2.2 (by linarith)
          fun _ => h1.2.2.2.2.2) fun z hz => ?_
        have e1 := hz.2.2.sub hc hb
        have e2 := e1.add hc ha
        rw [e1.fix hc (by linarith), e2.fix hc (by linarith)]
        have hm := u_clip h1.start h1.stop (e2.mono (by linarith)) (by linarith : h + w ≤ R)
        exact tmp (by linarith) hz h1.start hm.1 hm.2.1 hc.big
  | alw s I c ih =>
    rintro h w hR hU ⟨h1, q, w', ⟨ha, hb, hba⟩, hw, h2⟩
    have hq := u_pos ha
    have hw' := h2.st.1
    have hh := u_pos h1.2.1
    have ih := ih (h := h + q) (w := w') (by linarith) (fun r hr => (hU r hr).mono (by linarith)) h2
    constructor
    · simp only [computeLow, Tr.computeLow]
      refine sim_bind ih.1 fun c' hc' => ?_
      refine sim_bind (Q := fun a => SG rd G (h + w) a.1) ?_ fun z hz =>
        sim_ok ⟨h1.setLow hz, q, w', ⟨ha, hb, hba⟩, hw, hc'⟩
      unfold alwLow Tr.alwLow
      refine sim_ite Iff.rfl (fun _ => ?_) fun _ => ?_
      · rw [hp]
        exact sim_bind (append0_sim h1.2.2.2.2.1 h1.start hc.negB) fun z hz => sim_ok hz
      · refine sim_bind (timedGlob_sim (o := h + w) hc h2.st.pos hq ha hba (by linarith) hc'.st.2.2.2.2.1 (by linarith)
          fun _ => h1.2.2.2.2.1) fun z hz => ?_
        have e1 := hz.2.2.sub hc hb
        have e2 := e1.add hc ha
        rw [e1.fix hc (by linarith), e2.fix hc (by linarith)]
        have hm := u_clip h1.start h1.stop (e2.mono (by linarith)) (by linarith : h + w ≤ R)
        exact tmp (by linarith) hz h1.start hm.1 hm.2.1 hc.negB
    · simp only [computeUp, Tr.computeUp]
      refine sim_bind ih.2 fun c' hc' => ?_
      refine sim_bind (Q := fun a => SG rd G (h + w) a.1) ?_ fun z hz =>
        sim_ok ⟨h1.setUp hz, q, w', ⟨ha, hb, hba⟩, hw, hc'⟩
      unfold alwUp Tr.alwUp
      refine sim_ite Iff.rfl (fun _ => ?_) fun _ => ?_
      · rw [hp]
        exact sim_bind (append0_sim h1.2.2.2.2.2 h1.start hc.big) fun z hz => sim_ok hz
      · refine sim_bind (timedGlob_sim (o := h + w) hc h2.st.pos hq ha hba (by linarith) hc'.st.2.2.2.2.2 (by linarith)
          fun _ => h1.2.2.2.2.2) fun z hz => ?_
        have hm := (u_clip h1.start h1.stop (hz.2.2.mono (by linarith)) (by linarith : h + w ≤ R)).2.2
        exact tmp (by linarith) hz h1.start (hm.mono (by linarith)) (fun _ => hm) hc.big
  | untl s l I r ih1 ih2 =>
    rintro h w hR hU ⟨h1, q, w', ⟨ha, hb, hba⟩, hw, h2, h3⟩
    have hq := u_pos ha
    have hw' := h2.st.1
    have hh := u_pos h1.2.1
    have ih1 := ih1 (h := h + q) (w := w') (by linarith) (fun r hr => (hU r hr).mono (by linarith)) h2
    have ih2 := ih2 (h := h + q) (w := w') (by linarith) (fun r hr => (hU r hr).mono (by linarith)) h3
    have hi : IG G q env.params I := ⟨ha, hb, hba⟩
    constructor
    · simp only [computeLow, Tr.computeLow]
      refine sim_bind ih1.1 fun l' hl => ?_
      refine sim_ite Iff.rfl (fun _ => sim_ok ⟨h1, q, w', hi, hw, hl, h3⟩) fun _ => sim_bind ih2.1 fun r' hr => ?_
      refine sim_ite Iff.rfl (fun _ => sim_ok ⟨h1, q, w', hi, hw, hl, hr⟩) fun _ => ?_
      refine sim_bind (Q := fun a => SG rd G (h + w) a.1) ?_ fun z hz =>
        sim_ok ⟨h1.setLow hz, q, w', hi, hw, hl, hr⟩
      unfold untilLow Tr.untilLow
      refine sim_bind (timedUntil_sim (o := h + w) hc h2.st.pos hq ha hba (by linarith) hl.st.2.2.2.2.1
        hr.st.2.2.2.2.1 (by linarith) fun _ => h1.2.2.2.2.1) fun z hz => ?_
      have hm := (u_clip h1.start h1.stop (hz.2.2.mono (by linarith)) (by linarith : h + w ≤ R)).2.2
      refine sim_bind (resize_sim hc h1.pos (by linarith) hz h1.start hm hc.zero) fun z' hz' => ?_
      cases z'.samples <;> exact sim_ok hz'
    · simp only [computeUp, Tr.computeUp]
      refine sim_bind ih1.2 fun l' hl => ?_
      refine sim_ite Iff.rfl (fun _ => sim_ok ⟨h1, q, w', hi, hw, hl, h3⟩) fun _ => sim_bind ih2.2 fun r' hr => ?_
      refine sim_ite Iff.rfl (fun _ => sim_ok ⟨h1, q, w', hi, hw, hl, hr⟩) fun _ => ?_
      refine sim_bind (Q := fun a => SG rd G (h + w) a.1) ?_ fun z hz =>
        sim_ok ⟨h1.setUp hz, q, w', hi, hw, hl, hr⟩
      unfold untilUp Tr.untilUp
      refine sim_bind (timedUntil_sim (o := h + w) hc h2.st.pos hq ha hba (by linarith) hl.st.2.2.2.2.2
        hr.st.2.2.2.2.2 (by linarith) fun _ => h1.2.2.2.2.2) fun z hz => ?_
      have e1 := hz.2.2.sub hc hb
      rw [e1.fix hc (by linarith)]
      have hm := (u_clip h1.start h1.stop (e1.mono (by linarith)) (by linarith : h + w ≤ R)).2.2
      refine sim_bind (resize_sim hc h1.pos (by linarith) hz h1.start hm hc.zero) fun z' hz' => ?_
      cases z'.samples <;> exact sim_ok hz'
  | _ => intro h w _ _ e; exact e.elim

theorem run3_sim (hc : Calc rd env.B R G) (hD : WellShaped n env.data) (hp : env.ip = .PREVIOUS)
    (hs : env.sem = .SPACE) {T : Tr} {h w : ℚ} (hR : 2 * (h + w) ≤ R)
    (hU : ∀ row ∈ env.data, U G h (rowTime row)) (e : TG rd G n env.data env.params 9 h w T) :
    run3 rd env T = Monitor.run3 env T := by
  have key : Sim (fun _ => True) (run3 rd env T) (Monitor.run3 env T) := by
    unfold run3 Monitor.run3
    refine sim_bind (rob_sim hc hD hp hs hR hU e) fun r1 h1 => ?_
    refine sim_bind (low_up_sim hc hD hp hs hR hU h1.1).1 fun r2 h2 => ?_
    exact sim_bind (low_up_sim hc hD hp hs hR hU h2).2 fun r3 h3 => sim_ok trivial
  exact key.1

/-! ## Preparation -/

theorem exprKept_prepare (h0 : P.lookup "" = none) : ∀ (T : Tr) (s e : ℚ), ExprKept rd D P T →
    ExprKept rd D P (Monitor.prepare P s e T) := by
  have hr := fun row => rowExpr_prepare h0 row
  unfold Monitor.prepare at hr ⊢
  intro T
  induction T with
  | const s p v td =>
    intro s e hk
    simp only [Tr.setHorizon, Tr.reset, Tr.setTraceData, Tr.setParamMap, ExprKept, number, Tr.resolve] at hk ⊢
    split_ifs at hk ⊢ with hp
    · subst hp; rw [h0]; exact hk
    · exact hk
  | abs _ c ih => exact fun s e hk => ih s e hk
  | plus _ l r h1 h2 | minus _ l r h1 h2 | mult _ l r h1 h2 =>
    intro s e hk
    refine ⟨fun row hrow => ?_, h1 s e hk.2.1, h2 s e hk.2.2⟩
    have := hk.1 row hrow
    simp only [rowExpr] at this
    simp only [rowExpr, hr, this]
  | _ => exact fun s e hk => hk

theorem sg_empty (hc : Calc rd B R G) {r : ℚ} (hr : 0 ≤ r) : SG rd G r Signal.empty :=
  ⟨lg_nil, u_zero hc hr, u_zero hc hr⟩

theorem eg_fresh (hc : Calc rd B R G) {S E : ℚ} (hS : U G h S) (hE : U G h E) : ∀ {T : Tr}, IsExpr n T →
    Fresh P S E T → EG rd G h T := by
  have key : ∀ {s : St}, FreshSt S E s → ZG rd G h s := by
    rintro s ⟨rfl, rfl, h3, -, -⟩
    exact ⟨hS, hE, by rw [h3]; exact sg_empty hc (u_pos hS)⟩
  intro T
  induction T with
  | sig | const => exact fun _ e => key e.1
  | abs _ c ih => exact fun he e => ⟨key e.1, ih he e.2⟩
  | plus _ _ _ i j | minus _ _ _ i j | mult _ _ _ i j => exact fun he e => ⟨key e.1, i he.1 e.2.1, j he.2 e.2.2⟩
  | _ => exact fun he => he.elim

theorem ng_fresh (hc : Calc rd B R G) {S E : ℚ} (hw : 0 ≤ w) (hS : U G h S) (hE : U G h E) {s : St}
    (e : FreshSt S E s) : NG rd G h w s := by
  obtain ⟨rfl, rfl, h1, h2, h3⟩ := e
  have := sg_empty hc (add_nonneg (u_pos hS) hw)
  exact ⟨hw, hS, hE, by rw [h1]; exact this, by rw [h2]; exact this, by rw [h3]; exact this⟩

theorem allReach_nonneg (P : Assoc ℚ) : ∀ T : Tr, 0 ≤ allReach P T := by
  intro T
  induction T with
  | not _ _ ih => exact ih
  | ev _ I _ ih | alw _ I _ ih =>
    simp only [allReach]
    positivity
  | and _ _ _ i j | or _ _ _ i j | implies _ _ _ i j => exact le_max_of_le_left i
  | untl _ l I r i j =>
    have := le_max_of_le_left (b := allReach P l) (c := allReach P r) i
    simp only [allReach]
    positivity
  | _ => exact le_rfl

theorem ig_bounds (hc : Calc rd B R G) {I : Ival} (ha : G (bound P I.beginStr I.begin))
    (hb : G (bound P I.stopStr I.stop)) :
    IG G (|bound P I.beginStr I.begin| + |bound P I.stopStr I.stop|) P I := by
  have p1 := abs_nonneg (bound P I.beginStr I.begin)
  have p2 := abs_nonneg (bound P I.stopStr I.stop)
  unfold IG
  rw [ivA_eq, ivB_eq]
  refine ⟨⟨ha, by linarith⟩, ⟨hb, by linarith⟩, ?_⟩
  have h1 : U G |bound P I.beginStr I.begin| (bound P I.beginStr I.begin) := ⟨ha, le_rfl⟩
  have h2 : U G |bound P I.stopStr I.stop| (bound P I.stopStr I.stop) := ⟨hb, le_rfl⟩
  rw [add_comm]
  exact h2.sub hc h1

/-- A formula prepared for evaluation, with rounding or not. -/
theorem prepare_sim (hc : Calc rd B R G) (h0 : P.lookup "" = none) : ∀ (T : Tr) (h s e : ℚ), h + allReach P T ≤ R →
    U G h s → U G h e → Declared n T → MarginsKept rd D P T → BoundsIn G P T →
    prepare rd P s e T = Monitor.prepare P s e T ∧ TG rd G n D P 9 h (allReach P T) (Monitor.prepare P s e T) := by
  have hfr := fresh_prepare P
  have hex := @isExpr_prepare n P
  have hke := @exprKept_prepare rd D P h0
  have hro := fun row => rowExpr_prepare h0 row
  have hnn := allReach_nonneg P
  have hse : ∀ (T : Tr) (s e : ℚ), IsExpr n T → prepare rd P s e T = Monitor.prepare P s e T := by
    unfold prepare Monitor.prepare
    intro T
    induction T with
    | sig | const => intro s e _; rfl
    | abs _ c ih =>
      intro s e he
      simp only [Tr.setTraceData, Tr.setParamMap, Tr.reset, Tr.setHorizon, setHorizon, ih s e he]
    | plus _ l r i j | minus _ l r i j | mult _ l r i j =>
      intro s e he
      simp only [Tr.setTraceData, Tr.setParamMap, Tr.reset, Tr.setHorizon, setHorizon, i s e he.1, j s e he.2]
    | _ => intro s e he; exact he.elim
  unfold prepare Monitor.prepare at hse ⊢
  unfold Monitor.prepare at hfr hex hke hro
  intro T
  induction T with
  | atom st k l r =>
    intro h s e hR hs he hd hm hb
    have f := hfr (.atom st k l r) s e
    refine ⟨?_, ng_fresh hc le_rfl hs he f.1, fun row hrow => ?_, hex _ _ _ hd.1, hex _ _ _ hd.2, hke _ _ _ hm.2.1,
      hke _ _ _ hm.2.2, eg_fresh hc hs he (hex _ _ _ hd.1) f.2.1, eg_fresh hc hs he (hex _ _ _ hd.2) f.2.2,
      Or.inl ⟨s, e, f.2.1, f.2.2⟩⟩
    · simp only [Tr.setTraceData, Tr.setParamMap, Tr.reset, Tr.setHorizon, setHorizon, hse l s e hd.1, hse r s e hd.2]
    · rw [hro, hro]; exact hm.1 row hrow
  | not st c ih =>
    intro h s e hR hs he hd hm hb
    obtain ⟨a, b⟩ := ih h s e hR hs he hd hm hb
    refine ⟨?_, ng_fresh hc (hnn c) hs he (hfr (.not st c) s e).1, b⟩
    simp only [Tr.setTraceData, Tr.setParamMap, Tr.reset, Tr.setHorizon, setHorizon, a]
  | and st l r i j =>
    intro h s e hR hs he hd hm hb
    have hR1 : h + allReach P l ≤ R := (add_le_add_right (le_max_left _ _) h).trans hR
    have hR2 : h + allReach P r ≤ R := (add_le_add_right (le_max_right _ _) h).trans hR
    obtain ⟨a, b⟩ := i h s e hR1 hs he hd.1 hm.1 hb.1
    obtain ⟨c, d⟩ := j h s e hR2 hs he hd.2 hm.2 hb.2
    refine ⟨?_, ng_fresh hc (hnn (.and st l r)) hs he (hfr (.and st l r) s e).1, b.mono (le_max_left _ _), d.mono (le_max_right _ _)⟩
    simp only [Tr.setTraceData, Tr.setParamMap, Tr.reset, Tr.setHorizon, setHorizon, a, c]
  | or st l r i j =>
    intro h s e hR hs he hd hm hb
    have hR1 : h + allReach P l ≤ R := (add_le_add_right (le_max_left _ _) h).trans hR
    have hR2 : h + allReach P r ≤ R := (add_le_add_right (le_max_right _ _) h).trans hR
    obtain ⟨a, b⟩ := i h s e hR1 hs he hd.1 hm.1 hb.1
    obtain ⟨c, d⟩ := j h s e hR2 hs he hd.2 hm.2 hb.2
    refine ⟨?_, ng_fresh hc (hnn (.or st l r)) hs he (hfr (.or st l r) s e).1, b.mono (le_max_left _ _), d.mono (le_max_right _ _)⟩
    simp only [Tr.setTraceData, Tr.setParamMap, Tr.reset, Tr.setHorizon, setHorizon, a, c]
  | implies st l r i j =>
    intro h s e hR hs he hd hm hb
    have hR1 : h + allReach P l ≤ R := (add_le_add_right (le_max_left _ _) h).trans hR
    have hR2 : h + allReach P r ≤ R := (add_le_add_right (le_max_right _ _) h).trans hR
    obtain ⟨a, b⟩ := i h s e hR1 hs he hd.1 hm.1 hb.1
    obtain ⟨c, d⟩ := j h s e hR2 hs he hd.2 hm.2 hb.2
    refine ⟨?_, ng_fresh hc (hnn (.implies st l r)) hs he (hfr (.implies st l r) s e).1, b.mono (le_max_left _ _), d.mono (le_max_right _ _)⟩
    simp only [Tr.setTraceData, Tr.setParamMap, Tr.reset, Tr.setHorizon, setHorizon, a, c]
  | ev st I c ih =>
    intro h s e hR hs he hd hm hb
    have hi := ig_bounds hc hb.1 hb.2.1
    have hq := u_pos hi.1
    have hc0 := hnn c
    simp only [allReach] at hR
    set q := |bound P I.beginStr I.begin| + |bound P I.stopStr I.stop| with hqd
    have e1 := hs.add hc hi.1
    have e2 := he.add hc hi.2.1
    obtain ⟨a, b⟩ := ih (h + q) _ _ (by linarith) e1 e2 hd hm hb.2.2
    refine ⟨?_, ng_fresh hc (hnn (.ev st I c)) hs he (hfr (.ev st I c) s e).1, q, allReach P c, hi, ?_, b⟩
    · simp only [Tr.setTraceData, Tr.setParamMap, Tr.reset, Tr.setHorizon, setHorizon, e1.fix hc (by linarith : h + q ≤ R),
        e2.fix hc (by linarith : h + q ≤ R), a]
    · simp only [allReach]; linarith
  | alw st I c ih =>
    intro h s e hR hs he hd hm hb
    have hi := ig_bounds hc hb.1 hb.2.1
    have hq := u_pos hi.1
    have hc0 := hnn c
    simp only [allReach] at hR
    set q := |bound P I.beginStr I.begin| + |bound P I.stopStr I.stop| with hqd
    have e1 := hs.add hc hi.1
    have e2 := he.add hc hi.2.1
    obtain ⟨a, b⟩ := ih (h + q) _ _ (by linarith) e1 e2 hd hm hb.2.2
    refine ⟨?_, ng_fresh hc (hnn (.alw st I c)) hs he (hfr (.alw st I c) s e).1, q, allReach P c, hi, ?_, b⟩
    · simp only [Tr.setTraceData, Tr.setParamMap, Tr.reset, Tr.setHorizon, setHorizon, e1.fix hc (by linarith : h + q ≤ R),
        e2.fix hc (by linarith : h + q ≤ R), a]
    · simp only [allReach]; linarith
  | untl st l I r i j =>
    intro h s e hR hs he hd hm hb
    have hi := ig_bounds hc hb.1 hb.2.1
    have hq := u_pos hi.1
    have hl0 := hnn l
    have hr0 := hnn r
    simp only [allReach] at hR
    set q := |bound P I.beginStr I.begin| + |bound P I.stopStr I.stop| with hqd
    have m1 := le_max_left (allReach P l) (allReach P r)
    have m2 := le_max_right (allReach P l) (allReach P r)
    have e1 := hs.add hc hi.1
    have e2 := he.add hc hi.2.1
    obtain ⟨a, b⟩ := i (h + q) s _ (by linarith) (hs.mono (by linarith)) e2 hd.1 hm.1 hb.2.2.1
    obtain ⟨c, d⟩ := j (h + q) _ _ (by linarith) e1 e2 hd.2 hm.2 hb.2.2.2
    refine ⟨?_, ng_fresh hc (hnn (.untl st l I r)) hs he (hfr (.untl st l I r) s e).1, q,
      max (allReach P l) (allReach P r), hi, ?_, b.mono m1, d.mono m2⟩
    · simp only [Tr.setTraceData, Tr.setParamMap, Tr.reset, Tr.setHorizon, setHorizon, e1.fix hc (by linarith : h + q ≤ R),
        e2.fix hc (by linarith : h + q ≤ R), a, c]
    · simp only [allReach]; linarith
  | _ => intro h s e _ _ _ hd; exact hd.elim

/-- The rounded evaluation is the exact one. -/
theorem evalRob_grid {g : Globals} (hc : Calc rd g.B R G) {m : Monitor} {T : Tr} {s e : ℚ} (hm : m.formula = some T)
    (hi : m.ip = .PREVIOUS) (hs : m.sem = .SPACE) (h0 : m.params.lookup "" = none) (hD : WellShaped n m.data)
    (hT : Declared n T) (hk : MarginsKept rd m.data m.params T) (hb : BoundsIn G m.params T)
    (hR : 2 * (h + allReach m.params T) ≤ R) (hst : U G h s) (het : U G h e)
    (hU : ∀ row ∈ m.data, U G h (rowTime row)) : evalRob rd g m s e = m.evalRob g s e := by
  have p1 := u_pos hst
  have p2 := allReach_nonneg m.params T
  obtain ⟨a, b⟩ := prepare_sim (rd := rd) (n := n) hc h0 T h s e (by linarith) hst het hT hk hb
  have key := run3_sim (env := ⟨g.B, m.sem, m.ip, m.data, m.params⟩) hc hD hi hs hR hU b
  unfold evalRob Monitor.evalRob
  rw [hm]
  simp only [a, key]
  rfl

end
end Fp
end STLRom
