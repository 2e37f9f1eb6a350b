import Verif.Proofs.SelectFp
import Verif.Proofs.SelectRun
import Verif.Spec.SelectFp

/-!
# Reading a trace with rounding

With `PREVIOUS` interpolation the signals of constants and variables are not changed by rounding, if
the trace and the horizon consist of numbers that rounding keeps.
-/

namespace STLRom
namespace Fp
open Signal Spec

/-- What is needed of a rounding. -/
structure Rnd (rd : ℚ → ℚ) : Prop where
  zero : rd 0 = 0
  neg : ∀ x, rd x = x → rd (-x) = -x
  idem : ∀ x, rd (rd x) = rd x
  tol : ∀ s, rd s = s → rd (s - rd tol) ≤ s

/-- Numbers that the rounding keeps. -/
def Kept (rd : ℚ → ℚ) (x : ℚ) : Prop := rd x = x

/-- A piecewise constant signal of such numbers, ending at one. -/
def KS (rd : ℚ → ℚ) (z : Signal) : Prop := SIn (Kept rd) z ∧ rd z.endTime = z.endTime

section
variable {rd : ℚ → ℚ}

theorem Rnd.abs (R : Rnd rd) {x : ℚ} (h : rd x = x) : rd |x| = |x| := by
  rcases abs_choice x with e | e <;> rw [e]
  · exact h
  · exact R.neg x h

theorem Rnd.vals (R : Rnd rd) : Vals rd 0 (Kept rd) := ⟨R.zero, R.zero, R.neg, fun _ h => h⟩

theorem keep_max {a b : ℚ} (ha : rd a = a) (hb : rd b = b) : rd (max a b) = max a b := by
  rcases max_choice a b with e | e <;> rw [e] <;> assumption

theorem resizeFront_eq (R : Rnd rd) {z : Signal} (hz : SIn (Kept rd) z) (s : ℚ) :
    resizeFront rd z s = Signal.resizeFront z s := by
  have h2 := trimFront_in s z.samples Sample.zero (V := Kept rd) ⟨R.zero, rfl⟩ hz
  unfold resizeFront Signal.resizeFront
  by_cases h : s < z.beginTime
  · rw [if_pos h, if_pos h]
    rfl
  · rw [if_neg h, if_neg h]
    rcases e : trimFront s Sample.zero z.samples with ⟨f, l⟩
    rw [e] at h2
    have hf : valueAt rd f s = f.valueAt s := by
      rw [at_eq R.vals h2.1, h2.1.at]
    cases l with
    | nil => simp only [hf]
    | cons p r => simp only [hf]

theorem resize_eq (R : Rnd rd) {z : Signal} (hz : SIn (Kept rd) z) {s t v : ℚ} (hs : rd s = s) (h : s ≤ t) :
    resize rd z s t v = Signal.resize z s t v := by
  unfold resize Signal.resize
  have h' : ¬ t < s - Signal.tol := by have := tol_pos; intro h'; linarith
  rw [if_neg (not_lt.2 ((R.tol s hs).trans h)), resizeFront_eq R hz, if_neg h']

theorem resize_keep (R : Rnd rd) {z : Signal} (hz : KS rd z) {s t v : ℚ} (hs : rd s = s) (ht : rd t = t)
    (hv : rd v = v) : Post (KS rd) (Signal.resize z s t v) := by
  intro z' h
  refine ⟨STLRom.resize_in R.vals.exact hz.1 s t (V := Kept rd) hv z' h, ?_⟩
  unfold Signal.resize at h
  split_ifs at h with h1 h2
  · obtain rfl := Except.ok.inj h; exact R.zero
  · obtain ⟨x1, -, h⟩ := bind_eq_ok.1 h
    unfold resizeBack at h
    obtain ⟨l, -, h⟩ := bind_eq_ok.1 h
    obtain rfl := Except.ok.inj h
    exact hs
  · obtain ⟨x1, -, h⟩ := bind_eq_ok.1 h
    unfold resizeBack at h
    obtain ⟨l, -, h⟩ := bind_eq_ok.1 h
    obtain rfl := Except.ok.inj h
    exact ht

theorem leafTrim_eq (R : Rnd rd) {z : Signal} (hz : KS rd z) {S E t v : ℚ} (hS : rd S = S) (hE : rd E = E) :
    leafTrim rd S E z t v = Tr.leafTrim S E z t v := by
  unfold leafTrim Tr.leafTrim
  dsimp only
  have key : ∀ z : Signal, KS rd z →
      (if S < z.endTime then resize rd z S (max S z.endTime) v else resize rd z z.endTime z.endTime v) =
      (if S < z.endTime then Signal.resize z S (max S z.endTime) v else Signal.resize z z.endTime z.endTime v) := by
    intro z hz
    split_ifs
    · exact resize_eq R hz.1 hS (le_max_left _ _)
    · exact resize_eq R hz.1 hz.2 le_rfl
  by_cases h : E < t
  · rw [if_pos h]
    exact key { z with endTime := E } ⟨hz.1, hE⟩
  · rw [if_neg h]
    exact key z hz

theorem leafTrim_keep (R : Rnd rd) {z : Signal} (hz : KS rd z) {S E t v : ℚ} (hS : rd S = S) (hE : rd E = E)
    (hv : rd v = v) : Post (KS rd) (Tr.leafTrim S E z t v) := by
  unfold Tr.leafTrim
  dsimp only
  have key : ∀ z : Signal, KS rd z → Post (KS rd)
      (if S < z.endTime then Signal.resize z S (max S z.endTime) v else Signal.resize z z.endTime z.endTime v) :=
    fun z hz => post_ite (fun _ => resize_keep R hz hS (keep_max hS hz.2) hv)
      fun _ => resize_keep R hz hz.2 hz.2 hv
  by_cases h : E < t
  · rw [if_pos h]
    exact key { z with endTime := E } ⟨hz.1, hE⟩
  · rw [if_neg h]
    exact key z hz

theorem append_keep {z : Signal} (hz : KS rd z) {t v : ℚ} (ht : rd t = t) (hv : rd v = v) :
    Post (KS rd) (Signal.appendSample0 .PREVIOUS z t v) := by
  intro z' h
  refine ⟨STLRom.append_in hz.1 t 0 (V := Kept rd) hv z' h, ?_⟩
  unfold Signal.appendSample0 Signal.appendSample at h
  dsimp only at h
  split_ifs at h <;> obtain rfl := Except.ok.inj h
  · exact hz.2
  · exact ht
  · exact ht

theorem sigRead_eq {i : ℕ} {stop : ℚ} : ∀ (rows : List (List ℚ)) (z : Signal) (td : ℕ) (t v : ℚ),
    sigRead rd .PREVIOUS i stop rows z td t v = Tr.sigRead .PREVIOUS i stop rows z td t v
  | [], _, _, _, _ => rfl
  | row :: rows, z, td, t, v => by
    simp only [sigRead, Tr.sigRead, sigRead_eq rows]
    rfl

theorem constRead_eq {c stop : ℚ} : ∀ (rows : List (List ℚ)) (z : Signal) (td : ℕ) (t : ℚ),
    constRead rd .PREVIOUS c stop rows z td t = Tr.constRead .PREVIOUS c stop rows z td t
  | [], _, _, _ => rfl
  | row :: rows, z, td, t => by
    simp only [constRead, Tr.constRead, constRead_eq rows]
    rfl

theorem absLoop_eq : ∀ (l : List Sample) (z : Signal), absLoop rd .PREVIOUS z l = Tr.absLoop .PREVIOUS z l
  | [], _ => rfl
  | p :: l, z => by
    simp only [absLoop, Tr.absLoop, absLoop_eq l]
    rfl

theorem binLoop_eq {f : ℚ → ℚ → ℚ} : ∀ (l r : List Sample) (z : Signal),
    binLoop rd .PREVIOUS f z l r = Tr.binLoop .PREVIOUS (fun a b => rd (f a b)) z l r
  | [], _, _ => rfl
  | _ :: _, [], _ => rfl
  | p :: l, q :: r, z => by
    simp only [binLoop, Tr.binLoop, binLoop_eq l r]
    rfl

theorem cell_keep {row : List ℚ} (h : ∀ x ∈ row, rd x = x) (i : ℕ) :
    Post (fun x => rd x = x) (Tr.cell row i) := by
  unfold Tr.cell
  split
  · exact post_error
  · rename_i x e
    exact post_ok (h x (List.mem_of_getElem? e))

theorem sigRead_keep {i : ℕ} {stop : ℚ} : ∀ (rows : List (List ℚ)) (z : Signal) (td : ℕ) (t v : ℚ),
    (∀ r ∈ rows, ∀ x ∈ r, rd x = x) → KS rd z → rd v = v →
    Post (fun r => KS rd r.1 ∧ rd r.2.2.2 = r.2.2.2) (Tr.sigRead .PREVIOUS i stop rows z td t v)
  | [], _, _, _, _, _, hz, hv => post_ok ⟨hz, hv⟩
  | row :: rows, z, td, t, v, hr, hz, hv => by
    simp only [Tr.sigRead]
    refine post_ite (fun _ => ?_) fun _ => post_ok ⟨hz, hv⟩
    have hrow := hr row (by simp)
    refine post_bind (cell_keep hrow 0) fun t' ht => post_bind (cell_keep hrow i) fun v' hv' => ?_
    exact post_bind (append_keep hz ht hv') fun z' hz' =>
      sigRead_keep rows z' _ _ _ (fun r h => hr r (by simp [h])) hz' hv'

theorem constRead_keep {c stop : ℚ} (hc : rd c = c) : ∀ (rows : List (List ℚ)) (z : Signal) (td : ℕ) (t : ℚ),
    (∀ r ∈ rows, ∀ x ∈ r, rd x = x) → KS rd z →
    Post (fun r => KS rd r.1) (Tr.constRead .PREVIOUS c stop rows z td t)
  | [], _, _, _, _, hz => post_ok hz
  | row :: rows, z, td, t, hr, hz => by
    simp only [Tr.constRead]
    refine post_ite (fun _ => ?_) fun _ => post_ok hz
    refine post_bind (cell_keep (hr row (by simp)) 0) fun t' ht => ?_
    exact post_bind (append_keep hz ht hc) fun z' hz' =>
      constRead_keep hc rows z' _ _ (fun r h => hr r (by simp [h])) hz'

theorem post_congr {α β : Type} {Q : α → Prop} {m : M α} {f g : α → M β} (h : Post Q m)
    (hf : ∀ a, Q a → f a = g a) : (m >>= f) = m >>= g := by
  cases m with
  | error => rfl
  | ok a => exact hf a (h a rfl)

variable {env : Env} (R : Rnd rd) (hp : env.ip = .PREVIOUS) (hd : ∀ r ∈ env.data, ∀ x ∈ r, rd x = x)
include R hp hd

theorem sigRob_eq {s : St} {v : String} {m : Assoc ℕ} {td : Option ℕ} (hz : KS rd s.z)
    (hS : rd s.start = s.start) (hE : rd s.stop = s.stop) :
    sigRob rd env s v m td = Tr.sigRob env s v m td ∧
      Post (fun r => KS rd r.1) (Tr.sigRob env s v m td) := by
  unfold sigRob Tr.sigRob
  rcases (m.lookup v).getD 0 with _ | i
  · dsimp only
    rw [leafTrim_eq R hz hS hE]
    refine ⟨rfl, ?_⟩
    exact post_bind (leafTrim_keep R hz hS hE R.zero) fun z' hz' => post_bind' fun p => post_ok hz'
  · cases td with
    | none => exact ⟨rfl, post_error⟩
    | some td =>
      dsimp only
      split_ifs
      · exact ⟨rfl, post_error⟩
      · have hk := sigRead_keep (i := i + 1) (stop := s.stop) (env.data.drop td) s.z td 0 0
          (fun r hr => hd r (List.mem_of_mem_drop hr)) hz R.zero
        rw [hp, sigRead_eq]
        constructor
        · refine post_congr hk fun a ha => ?_
          rw [leafTrim_eq R ha.1 hS hE]
        · refine post_bind hk fun a ha => ?_
          exact post_bind (leafTrim_keep R ha.1 hS hE ha.2) fun z' hz' => post_bind' fun p => post_ok hz'

theorem constRob_eq {s : St} {c : ℚ} {td : Option ℕ} (hc : rd c = c) (hz : KS rd s.z)
    (hS : rd s.start = s.start) (hE : rd s.stop = s.stop) :
    constRob rd env s c td = Tr.constRob env s c td ∧ Post (fun r => KS rd r.1) (Tr.constRob env s c td) := by
  unfold constRob Tr.constRob
  cases td with
  | none => exact ⟨rfl, post_error⟩
  | some td =>
    dsimp only
    split_ifs
    · exact ⟨rfl, post_error⟩
    · have hk := constRead_keep (stop := s.stop) hc (env.data.drop td) s.z td 0
        (fun r hr => hd r (List.mem_of_mem_drop hr)) hz
      rw [hp, constRead_eq]
      constructor
      · refine post_congr hk fun a ha => ?_
        rw [leafTrim_eq R ha hS hE]
      · exact post_bind hk fun a ha => post_bind (leafTrim_keep R ha hS hE hc) fun z' hz' => post_ok hz'

end
end Fp
end STLRom
