import Verif.Proofs.Steady
import Verif.Proofs.Step

/-!
# Piecewise constant signals with values in a set

If all samples of the operands have their value in `V` and slope 0, so have all samples of the
result, where `V` contains `0`, `B`, and with every number its opposite.
-/

namespace STLRom
open Signal Spec

/-- What holds of a result, if there is one. -/
def Post {α : Type} (P : α → Prop) (m : M α) : Prop := ∀ a, m = .ok a → P a

theorem post_ok {α : Type} {P : α → Prop} {a : α} (h : P a) : Post P (.ok a) := by
  intro b e
  obtain rfl := Except.ok.inj e
  exact h

theorem post_error {α : Type} {P : α → Prop} {f : Fault} : Post P (.error f) := by
  intro b e
  cases e

theorem post_bind {α β : Type} {Q : α → Prop} {P : β → Prop} {m : M α} {f : α → M β}
    (h1 : Post Q m) (h2 : ∀ a, Q a → Post P (f a)) : Post P (m >>= f) := by
  intro b e
  obtain ⟨a, e1, e2⟩ := bind_eq_ok.1 e
  exact h2 a (h1 a e1) b e2

theorem post_bind' {α β : Type} {P : β → Prop} {m : M α} {f : α → M β}
    (h2 : ∀ a, Post P (f a)) : Post P (m >>= f) := by
  intro b e
  obtain ⟨a, _, e2⟩ := bind_eq_ok.1 e
  exact h2 a b e2

theorem post_mono {α : Type} {Q P : α → Prop} {m : M α} (h : ∀ a, Q a → P a) (h1 : Post Q m) :
    Post P m := fun a e => h a (h1 a e)

theorem post_ite {α : Type} {P : α → Prop} {c : Prop} [Decidable c] {a b : M α}
    (h1 : c → Post P a) (h2 : ¬ c → Post P b) : Post P (if c then a else b) := by
  by_cases h : c
  · rw [if_pos h]; exact h1 h
  · rw [if_neg h]; exact h2 h

/-- A set of values the operations stay in. -/
structure Vals (B : ℚ) (V : ℚ → Prop) : Prop where
  big : V B
  zero : V 0
  neg : ∀ x, V x → V (-x)

/-- A sample with value in `V` and slope 0. -/
def PIn (V : ℚ → Prop) (p : Sample) : Prop := V p.value ∧ p.derivative = 0

/-- A list of such samples. -/
def LIn (V : ℚ → Prop) (l : List Sample) : Prop := ∀ p ∈ l, PIn V p

/-- A signal of such samples. -/
def SIn (V : ℚ → Prop) (x : Signal) : Prop := LIn V x.samples

section
variable {B : ℚ} {V : ℚ → Prop}

theorem PIn.at {p : Sample} (h : PIn V p) (t : ℚ) : p.valueAt t = p.value := by
  simp [Sample.valueAt, h.2]

theorem PIn.vat {p : Sample} (h : PIn V p) (t : ℚ) : V (p.valueAt t) := by
  rw [h.at]; exact h.1

theorem pin_at {p : Sample} (h : PIn V p) (t s : ℚ) : PIn V ⟨s, p.valueAt t, p.derivative⟩ :=
  ⟨h.vat t, h.2⟩

theorem pin_val {v : ℚ} (h : V v) (s : ℚ) : PIn V ⟨s, v, 0⟩ := ⟨h, rfl⟩

theorem lin_nil : LIn V [] := by simp [LIn]

theorem lin_cons {p : Sample} {l : List Sample} (h : PIn V p) (hl : LIn V l) : LIn V (p :: l) := by
  intro q hq
  rcases List.mem_cons.1 hq with rfl | hq
  · exact h
  · exact hl q hq

theorem LIn.head {p : Sample} {l : List Sample} (h : LIn V (p :: l)) : PIn V p := h p (by simp)

theorem LIn.tail {p : Sample} {l : List Sample} (h : LIn V (p :: l)) : LIn V l :=
  fun q hq => h q (by simp [hq])

theorem lin_append {l m : List Sample} (h : LIn V l) (hm : LIn V m) : LIn V (l ++ m) := by
  intro q hq
  rcases List.mem_append.1 hq with hq | hq
  · exact h q hq
  · exact hm q hq

theorem lin_reverse {l : List Sample} (h : LIn V l) : LIn V l.reverse :=
  fun q hq => h q (List.mem_reverse.1 hq)

theorem lin_ite {c : Prop} [Decidable c] {l m : List Sample} (h : LIn V l) (hm : LIn V m) :
    LIn V (if c then l else m) := by
  split_ifs
  · exact h
  · exact hm

theorem Vals.negB (h : Vals B V) : V (-B) := h.neg _ h.big

theorem v_fmax {a b : ℚ} (ha : V a) (hb : V b) : V (fmax a b) := by
  unfold fmax; split_ifs <;> assumption

theorem v_fmin {a b : ℚ} (ha : V a) (hb : V b) : V (fmin a b) := by
  unfold fmin; split_ifs <;> assumption

theorem sin_not (h : Vals B V) {x : Signal} (hx : SIn V x) : SIn V (computeNot x) := by
  intro p hp
  obtain ⟨q, hq, rfl⟩ := List.mem_map.1 hp
  exact ⟨h.neg _ (hx q hq).1, by simp [(hx q hq).2]⟩

theorem sin_shift {x : Signal} (hx : SIn V x) (a : ℚ) : SIn V (shift x a) := by
  intro p hp
  obtain ⟨q, hq, rfl⟩ := List.mem_map.1 hp
  exact hx q hq

theorem sin_empty : SIn V Signal.empty := by simp [SIn, LIn, Signal.empty]

theorem simplifyLoop_in (b : ℚ) : ∀ (n : ℕ) (l : List Sample), LIn V l →
    Post (LIn V) (simplifyLoop b n l)
  | 0, [], _ | _ + 1, [], _ => by simp only [simplifyLoop]; exact post_error
  | 0, f :: r, h => by
    simp only [simplifyLoop]
    split_ifs
    · exact post_ok h
    · exact post_error
  | n + 1, f :: r, h => by
    simp only [simplifyLoop]
    split_ifs with h1
    · exact post_ok h
    · split
      · exact post_error
      · split_ifs
        · exact simplifyLoop_in b n _ (lin_append h.tail (lin_cons h.head lin_nil))
        · exact simplifyLoop_in b n _ h.tail

theorem simplify_in {x : Signal} (hx : SIn V x) : Post (SIn V) (simplify x) := by
  unfold simplify
  unfold SIn at hx
  split
  · exact post_error
  · rename_i p r e
    rw [e] at hx
    refine post_bind (simplifyLoop_in _ _ _ (lin_append hx.tail (lin_cons hx.head lin_nil))) ?_
    intro l hl
    split
    · exact post_error
    · rename_i b eb
      have hb := hl b (List.mem_of_getLast? eb)
      split_ifs
      · exact post_ok (lin_append hl (lin_cons (pin_val (hb.vat _) _) lin_nil))
      · exact post_ok hl

theorem trimFront_in (s : ℚ) : ∀ (l : List Sample) (f : Sample), PIn V f → LIn V l →
    PIn V (trimFront s f l).1 ∧ LIn V (trimFront s f l).2
  | [], f, hf, _ => ⟨hf, lin_nil⟩
  | p :: r, f, hf, h => by
    simp only [trimFront]
    split_ifs
    · exact trimFront_in s r p h.head h.tail
    · exact ⟨hf, h⟩

theorem trimBack_in (t : ℚ) {l : List Sample} (h : LIn V l) : LIn V (trimBack t l) := by
  intro q hq
  unfold trimBack at hq
  exact h q (List.mem_reverse.1 ((List.dropWhile_sublist _).subset (List.mem_reverse.1 hq)))

theorem resizeFront_in (hV : Vals B V) {x : Signal} (hx : SIn V x) (s : ℚ) :
    Post (SIn V) (resizeFront x s) := by
  unfold resizeFront
  refine post_ite (fun _ => ?_) fun _ => ?_
  · split
    · exact post_error
    · rename_i p r e
      have hp : PIn V p := hx p (by simp [e])
      exact post_ok (lin_cons (pin_val hp.1 _) hx)
  · have h2 := trimFront_in s x.samples Sample.zero ⟨hV.zero, rfl⟩ hx
    split
    · rename_i f e
      rw [e] at h2
      exact post_ok (lin_cons (pin_val (h2.1.vat _) _) lin_nil)
    · rename_i f p r e
      rw [e] at h2
      exact post_ite (fun _ => post_ok (lin_cons (pin_at h2.1 _ _) h2.2)) fun _ => post_ok h2.2

theorem resize_in (hV : Vals B V) {x : Signal} (hx : SIn V x) (s t : ℚ) {v : ℚ} (hv : V v) :
    Post (SIn V) (resize x s t v) := by
  unfold resize
  refine post_ite (fun _ => post_ok lin_nil) fun _ => ?_
  refine post_bind (resizeFront_in hV hx s) fun y hy => ?_
  unfold resizeBack
  refine post_bind (Q := LIn V) ?_ fun l hl => post_ok (lin_ite (lin_cons (pin_val hv _) lin_nil) hl)
  refine post_ite (fun _ => ?_) fun _ => post_ok (trimBack_in _ hy)
  split
  · exact post_error
  · exact post_ite (fun _ => post_ok (lin_append hy (lin_cons (pin_val hv _) lin_nil)))
      fun _ => post_ok hy

theorem append_in {x : Signal} (hx : SIn V x) (t : ℚ) {v : ℚ} (d : ℚ) (hv : V v) :
    Post (SIn V) (appendSample .PREVIOUS x t v d) := by
  unfold appendSample
  refine post_ite (fun _ => post_ok hx) fun _ => ?_
  dsimp only
  exact post_ite (fun _ => post_ok (lin_cons (pin_val hv _) lin_nil))
    fun _ => post_ok (lin_append hx (lin_cons (pin_val hv _) lin_nil))

/-! ## Conjunction and disjunction -/

theorem segmentAndLoop_in {i : Sample} (hi : PIn V i) : ∀ (js : List Sample) (z : List Sample) (t : ℚ)
    (c : Bool), LIn V js → LIn V z →
    Post (fun r => LIn V r.1 ∧ LIn V r.2.2.2) (segmentAndLoop i z t c js)
  | [], z, t, c, _, _ => by simp only [segmentAndLoop]; exact post_error
  | j :: js, z, t, c, hj, hz => by
    have hc : LIn V (if c then ⟨t, i.valueAt t, i.derivative⟩ :: z else z) :=
      lin_ite (lin_cons (pin_at hi _ _) hz) hz
    have hj' : PIn V ⟨j.time, j.value, j.derivative⟩ := hj.head
    have ih := segmentAndLoop_in hi js
    simp only [segmentAndLoop]
    split_ifs
    · exact post_bind' fun t' => ih _ _ _ hj.tail (lin_cons hj' (lin_cons (pin_at hi _ _) hz))
    · exact ih _ _ _ hj.tail hz
    · exact ih _ _ _ hj.tail (lin_cons hj' (lin_cons (pin_at hi _ _) hz))
    · exact ih _ _ _ hj.tail (lin_cons hj' hz)
    · exact ih _ _ _ hj.tail hz
    · exact post_bind' fun t' => ih _ _ _ hj.tail (lin_cons (pin_at hj.head _ _) (lin_cons (pin_at hi _ _) hz))
    · exact post_bind' fun t' => ih _ _ _ hj.tail (lin_cons (pin_at hj.head _ _) hz)
    · exact ih _ _ _ hj.tail (lin_cons hj' (lin_cons (pin_at hi _ _) hz))
    · exact ih _ _ _ hj.tail (lin_cons hj' hz)
    · exact post_ok ⟨hz, hj⟩


theorem segmentAndLast_in {i j : Sample} {z : List Sample} (hi : PIn V i) (hj : PIn V j) (hz : LIn V z)
    (t : ℚ) (c : Bool) : Post (LIn V) (segmentAndLast i z t c j) := by
  have hc : LIn V (if c then ⟨t, i.valueAt t, i.derivative⟩ :: z else z) :=
    lin_ite (lin_cons (pin_at hi _ _) hz) hz
  unfold segmentAndLast
  dsimp only
  refine post_ite (fun _ => ?_) fun _ => post_ite (fun _ => ?_) fun _ => ?_
  · exact post_ite (fun _ => post_bind' fun t' => post_ok (lin_cons (pin_at hj _ _) (lin_cons (pin_at hi _ _) hz)))
      fun _ => post_ok (lin_cons hi hz)
  · exact post_ite (fun _ => post_ok (lin_cons (pin_at hj _ _) hc)) fun _ => post_ok (lin_cons hi hz)
  · exact post_ite (fun _ => post_bind' fun t' => post_ok (lin_cons hi (lin_cons (pin_at hj _ _) hc)))
      fun _ => post_ok (lin_cons (pin_at hj _ _) hc)

theorem segmentAnd_in {i : Sample} {z js : List Sample} (hi : PIn V i) (hz : LIn V z) (hj : LIn V js) (t : ℚ) :
    Post (fun r => LIn V r.1 ∧ LIn V r.2) (segmentAnd z i t js) := by
  unfold segmentAnd
  refine post_bind (segmentAndLoop_in hi js z t false hj hz) ?_
  rintro ⟨z', t', c, js'⟩ ⟨h1, h2⟩
  dsimp only at h1 h2 ⊢
  split
  · exact post_error
  · exact post_bind (segmentAndLast_in hi h2.head h1 _ _) fun z'' h => post_ok ⟨h, h2⟩

theorem partialAnd_in (s : ℚ) : ∀ (is z js : List Sample) (t : ℚ), LIn V is → LIn V z → LIn V js →
    Post (LIn V) (partialAnd s z is js t)
  | [], z, js, t, _, _, _ => by simp only [partialAnd]; exact post_error
  | i :: is, z, js, t, hi, hz, hj => by
    simp only [partialAnd]
    refine post_ite (fun _ => ?_) fun _ => post_ite (fun _ => ?_) fun _ => ?_
    · refine post_bind (segmentAnd_in hi.head hz hj t) ?_
      rintro ⟨z', js'⟩ ⟨h1, h2⟩
      dsimp only at h1 h2 ⊢
      split
      · exact post_error
      · exact partialAnd_in s is _ _ _ hi.tail h1 (lin_ite h2.tail h2)
    · exact post_bind (segmentAnd_in hi.head hz hj t) fun r h => post_ok h.1
    · exact post_bind (segmentAnd_in (pin_at hi.head _ _) hz hj t) fun r h => post_ok h.1

theorem segmentOrLoop_in {i : Sample} (hi : PIn V i) : ∀ (js : List Sample) (z : List Sample) (t : ℚ)
    (c : Bool), LIn V js → LIn V z →
    Post (fun r => LIn V r.1 ∧ LIn V r.2.2.2) (segmentOrLoop i z t c js)
  | [], z, t, c, _, _ => by simp only [segmentOrLoop]; exact post_error
  | j :: js, z, t, c, hj, hz => by
    have hc : LIn V (if c then ⟨t, i.valueAt t, i.derivative⟩ :: z else z) :=
      lin_ite (lin_cons (pin_at hi _ _) hz) hz
    have hj' : PIn V ⟨j.time, j.value, j.derivative⟩ := hj.head
    have ih := segmentOrLoop_in hi js
    simp only [segmentOrLoop]
    split_ifs
    · exact post_bind' fun t' => ih _ _ _ hj.tail (lin_cons hj' (lin_cons (pin_at hi _ _) hz))
    · exact ih _ _ _ hj.tail hz
    · exact ih _ _ _ hj.tail (lin_cons hj' (lin_cons (pin_at hi _ _) hz))
    · exact ih _ _ _ hj.tail (lin_cons hj' hz)
    · exact ih _ _ _ hj.tail hz
    · exact post_bind' fun t' => ih _ _ _ hj.tail (lin_cons (pin_at hj.head _ _) (lin_cons (pin_at hi _ _) hz))
    · exact post_bind' fun t' => ih _ _ _ hj.tail (lin_cons (pin_at hj.head _ _) hz)
    · exact ih _ _ _ hj.tail (lin_cons hj' (lin_cons (pin_at hi _ _) hz))
    · exact ih _ _ _ hj.tail (lin_cons hj' hz)
    · exact post_ok ⟨hz, hj⟩


theorem segmentOrLast_in {i j : Sample} {z : List Sample} (hi : PIn V i) (hj : PIn V j) (hz : LIn V z)
    (t : ℚ) (c : Bool) : Post (LIn V) (segmentOrLast i z t c j) := by
  have hc : LIn V (if c then ⟨t, i.valueAt t, i.derivative⟩ :: z else z) :=
    lin_ite (lin_cons (pin_at hi _ _) hz) hz
  unfold segmentOrLast
  dsimp only
  refine post_ite (fun _ => ?_) fun _ => post_ite (fun _ => ?_) fun _ => ?_
  · exact post_ite (fun _ => post_bind' fun t' => post_ok (lin_cons (pin_at hj _ _) (lin_cons (pin_at hi _ _) hz)))
      fun _ => post_ok (lin_cons hi hz)
  · exact post_ite (fun _ => post_ok (lin_cons (pin_at hj _ _) hc)) fun _ => post_ok (lin_cons hi hz)
  · exact post_ite (fun _ => post_bind' fun t' => post_ok (lin_cons hi (lin_cons (pin_at hj _ _) hc)))
      fun _ => post_ok (lin_cons (pin_at hj _ _) hc)

theorem segmentOr_in {i : Sample} {z js : List Sample} (hi : PIn V i) (hz : LIn V z) (hj : LIn V js) (t : ℚ) :
    Post (fun r => LIn V r.1 ∧ LIn V r.2) (segmentOr z i t js) := by
  unfold segmentOr
  refine post_bind (segmentOrLoop_in hi js z t false hj hz) ?_
  rintro ⟨z', t', c, js'⟩ ⟨h1, h2⟩
  dsimp only at h1 h2 ⊢
  split
  · exact post_error
  · exact post_bind (segmentOrLast_in hi h2.head h1 _ _) fun z'' h => post_ok ⟨h, h2⟩

theorem partialOr_in (s : ℚ) : ∀ (is z js : List Sample) (t : ℚ), LIn V is → LIn V z → LIn V js →
    Post (LIn V) (partialOr s z is js t)
  | [], z, js, t, _, _, _ => by simp only [partialOr]; exact post_error
  | i :: is, z, js, t, hi, hz, hj => by
    simp only [partialOr]
    refine post_ite (fun _ => ?_) fun _ => post_ite (fun _ => ?_) fun _ => ?_
    · refine post_bind (segmentOr_in hi.head hz hj t) ?_
      rintro ⟨z', js'⟩ ⟨h1, h2⟩
      dsimp only at h1 h2 ⊢
      split
      · exact post_error
      · exact partialOr_in s is _ _ _ hi.tail h1 (lin_ite h2.tail h2)
    · exact post_bind (segmentOr_in hi.head hz hj t) fun r h => post_ok h.1
    · exact post_bind (segmentOr_in (pin_at hi.head _ _) hz hj t) fun r h => post_ok h.1

theorem skipGuarded_in (e : ℚ) : ∀ l : List Sample, LIn V l → Post (LIn V) (skipGuarded e l)
  | [], _ => by simp only [skipGuarded]; exact post_error
  | [p], h => by simp only [skipGuarded]; exact post_ok h
  | p :: q :: r, h => by
    simp only [skipGuarded]
    exact post_ite (fun _ => skipGuarded_in e _ h.tail) fun _ => post_ok h

theorem skip_in (e : ℚ) : ∀ l : List Sample, LIn V l → Post (LIn V) (skip e l)
  | [], _ => by simp only [skip]; exact post_error
  | p :: r, h => by
    simp only [skip]
    exact post_ite (fun _ => skip_in e _ h.tail) fun _ => post_ok h

section
variable {x y : Signal} (hx : SIn V x) (hy : SIn V y)
include hx hy

theorem computeAndM_in : Post (SIn V) (computeAndM x y) := by
  unfold computeAndM
  refine post_bind (skipGuarded_in _ _ (lin_reverse hx)) fun is h1 => ?_
  refine post_bind (skipGuarded_in _ _ (lin_reverse hy)) fun js h2 => ?_
  exact post_bind (partialAnd_in _ _ _ _ _ h1 lin_nil h2) fun z h3 => simplify_in h3

theorem computeOrM_in : Post (SIn V) (computeOrM x y) := by
  unfold computeOrM
  refine post_bind (skipGuarded_in _ _ (lin_reverse hx)) fun is h1 => ?_
  refine post_bind (skipGuarded_in _ _ (lin_reverse hy)) fun js h2 => ?_
  exact post_bind (partialOr_in _ _ _ _ _ h1 lin_nil h2) fun z h3 => simplify_in h3

theorem computeAnd_in : Post (SIn V) (computeAnd x y) := by
  unfold computeAnd
  refine post_bind (skip_in _ _ (lin_reverse hx)) fun is h1 => ?_
  refine post_bind (skip_in _ _ (lin_reverse hy)) fun js h2 => ?_
  exact post_bind (partialAnd_in _ _ _ _ _ h1 lin_nil h2) fun z h3 => simplify_in h3

theorem computeOr_in : Post (SIn V) (computeOr x y) := by
  unfold computeOr
  refine post_bind (skip_in _ _ (lin_reverse hx)) fun is h1 => ?_
  refine post_bind (skip_in _ _ (lin_reverse hy)) fun js h2 => ?_
  exact post_bind (partialOr_in _ _ _ _ _ h1 lin_nil h2) fun z h3 => simplify_in h3

end

/-! ## Temporal operators -/

theorem partialEventually_in (s : ℚ) : ∀ (is z : List Sample) (t : ℚ) (c : Bool) (zm : ℚ), LIn V is →
    LIn V z → V zm → Post (fun r => LIn V r.1 ∧ LIn V r.2) (partialEventually s z is t c zm)
  | [], z, t, c, zm, _, _, _ => by simp only [partialEventually]; exact post_error
  | i :: is, z, t, c, zm, hi, hz, hm => by
    have hc : LIn V (if c then ⟨t, zm, 0⟩ :: z else z) := lin_ite (lin_cons (pin_val hm _) hz) hz
    have ih := partialEventually_in s is
    simp only [partialEventually]
    refine post_ite (fun _ => ?_) fun _ => ?_
    · refine post_ite (fun _ => ?_) fun _ => post_ite (fun _ => ?_) fun _ => post_ite (fun _ => ?_) fun _ => ?_
      · exact post_ite (fun _ => ih _ _ _ _ hi.tail hc (hi.head.vat _)) fun _ => ih _ _ _ _ hi.tail hz hm
      · exact ih _ _ _ _ hi.tail (lin_cons hi.head hc) hi.head.1
      · exact ih _ _ _ _ hi.tail hz hm
      · exact post_bind' fun d => ih _ _ _ _ hi.tail (lin_cons hi.head (lin_cons (pin_val hm _) hz)) hi.head.1
    · refine post_ite (fun _ => ?_) fun _ => post_ite (fun _ => ?_) fun _ => post_ite (fun _ => ?_) fun _ => ?_
      · exact post_ite (fun _ => post_ok ⟨lin_cons (pin_val (hi.head.vat _) _) hc, hi⟩)
          fun _ => post_ok ⟨lin_cons (pin_val hm _) hz, hi⟩
      · exact post_ok ⟨lin_cons (pin_at hi.head _ _) hc, hi⟩
      · exact post_ok ⟨lin_cons (pin_val hm _) hz, hi⟩
      · exact post_bind' fun d =>
          post_ok ⟨lin_cons (pin_at hi.head _ _) (lin_cons (pin_val hm _) hz), hi⟩

theorem computeEventually_in (hV : Vals B V) {x : Signal} (hx : SIn V x) :
    Post (SIn V) (computeEventually B x) := by
  unfold computeEventually
  exact post_bind (partialEventually_in _ _ _ _ _ _ (lin_reverse hx) lin_nil hV.negB) fun r h => post_ok h.1

theorem computeGlobally_in (hV : Vals B V) {x : Signal} (hx : SIn V x) :
    Post (SIn V) (computeGlobally B x) := by
  unfold computeGlobally
  exact post_bind (computeEventually_in hV (sin_not hV hx)) fun r h => post_ok (sin_not hV h)

/-- A list of points with values in `V`. -/
def QIn (V : ℚ → Prop) (l : List Point) : Prop := ∀ p ∈ l, V p.value

theorem qin_nil : QIn V [] := by simp [QIn]

theorem qin_cons {p : Point} {l : List Point} (h : V p.value) (hl : QIn V l) : QIn V (p :: l) := by
  intro q hq
  rcases List.mem_cons.1 hq with rfl | hq
  · exact h
  · exact hl q hq

theorem QIn.head {p : Point} {l : List Point} (h : QIn V (p :: l)) : V p.value := h p (by simp)

theorem QIn.tail {p : Point} {l : List Point} (h : QIn V (p :: l)) : QIn V l :=
  fun q hq => h q (by simp [hq])

theorem qin_append {l m : List Point} (h : QIn V l) (hm : QIn V m) : QIn V (l ++ m) := by
  intro q hq
  rcases List.mem_append.1 hq with hq | hq
  · exact h q hq
  · exact hm q hq

theorem popFront_in {e : Bool} {m : List Point} (h : QIn V m) : Post (QIn V) (popFront e m) := by
  unfold popFront
  refine post_ite (fun _ => ?_) fun _ => post_ok h
  split
  · exact post_error
  · exact post_ok h.tail

theorem frontVal_in {v : ℚ} (hv : V v) : ∀ {m : List Point}, QIn V m → V (frontVal v m)
  | [], _ => hv
  | _ :: _, h => h.head

theorem peaksMax_in : ∀ (js : List Sample) (t v : ℚ) (y : List Point), LIn V js → V v → QIn V y →
    QIn V (peaksMax js t v y)
  | [], _, _, _, _, _, hy => hy
  | j :: js, t, v, y, hj, hv, hy =>
    peaksMax_in js _ _ _ hj.tail hj.head.1 (qin_cons (v_fmax hv (hj.head.vat _)) hy)

theorem popMax_in (v : ℚ) {m : List Point} (h : QIn V m) : QIn V (popMax v m) := by
  intro q hq
  unfold popMax at hq
  exact h q (List.mem_reverse.1 ((List.dropWhile_sublist _).subset (List.mem_reverse.1 hq)))

theorem initMax_in (lim : ℚ) : ∀ (is m : List Point), QIn V is → QIn V m →
    Post (fun r => QIn V r.1 ∧ QIn V r.2) (initMax lim m is)
  | [], m, _, _ => by simp only [initMax]; exact post_error
  | i :: is, m, hi, hm => by
    simp only [initMax]
    exact post_ite (fun _ => initMax_in lim is _ hi.tail
      (qin_append (popMax_in _ hm) (qin_cons hi.head qin_nil))) fun _ => post_ok ⟨hm, hi⟩

theorem enterMax_in {c : Bool} {m is : List Point} (hm : QIn V m) (hi : QIn V is) :
    Post (fun r => QIn V r.1 ∧ QIn V r.2) (enterMax c m is) := by
  unfold enterMax
  refine post_ite (fun _ => ?_) fun _ => post_ok ⟨hm, hi⟩
  split
  · exact post_error
  · exact post_ok ⟨qin_append (popMax_in _ hm) (qin_cons hi.head qin_nil), hi.tail⟩

theorem plateauMaxLoop_in (hV : Vals B V) (a : ℚ) : ∀ (n : ℕ) (m is : List Point) (z : List Sample) (t : ℚ)
    (c e : Bool), QIn V m → QIn V is → LIn V z → Post (LIn V) (plateauMaxLoop B a n m is z t c e)
  | 0, _, _, _, _, _, _, _, _, _ => by simp only [plateauMaxLoop]; exact post_error
  | n + 1, m, is, z, t, c, e, hm, hi, hz => by
    simp only [plateauMaxLoop]
    refine post_bind (popFront_in hm) fun m1 h1 => ?_
    refine post_bind (enterMax_in h1 hi) ?_
    rintro ⟨m2, is2⟩ ⟨h2, h3⟩
    have hz' : LIn V (⟨t, frontVal (-B) m2, 0⟩ :: z) := lin_cons (pin_val (frontVal_in hV.negB h2) _) hz
    dsimp only at h2 h3 ⊢
    have ih := plateauMaxLoop_in hV a n
    split
    · exact post_ite (fun _ => ih _ _ _ _ _ _ h2 h3 hz') fun _ =>
        post_ite (fun _ => ih _ _ _ _ _ _ h2 h3 hz') fun _ => ih _ _ _ _ _ _ h2 h3 hz'
    · exact ih _ _ _ _ _ _ h2 h3 hz'
    · exact ih _ _ _ _ _ _ h2 h3 hz'
    · exact post_ok hz'

theorem plateauMax_in (hV : Vals B V) {x : Signal} (hx : SIn V x) (a : ℚ) :
    Post (SIn V) (plateauMax B x a) := by
  unfold plateauMax
  split
  · exact post_error
  · rename_i f r e
    have hf : PIn V f := hx f (by simp [e])
    refine post_bind (initMax_in _ _ _ (qin_cons hf.1 (peaksMax_in _ _ _ _ (lin_reverse hx) hV.negB qin_nil))
      qin_nil) ?_
    rintro ⟨m, is⟩ ⟨h1, h2⟩
    dsimp only at h1 h2 ⊢
    split
    · exact post_error
    · refine post_bind (plateauMaxLoop_in hV a _ _ _ _ _ _ _ h1 h2 lin_nil) fun z hz => ?_
      split
      · exact post_error
      · exact post_ok (lin_reverse (lin_ite hz.tail hz))

theorem peaksMin_in : ∀ (js : List Sample) (t v : ℚ) (y : List Point), LIn V js → V v → QIn V y →
    QIn V (peaksMin js t v y)
  | [], _, _, _, _, _, hy => hy
  | j :: js, t, v, y, hj, hv, hy =>
    peaksMin_in js _ _ _ hj.tail hj.head.1 (qin_cons (v_fmin hv (hj.head.vat _)) hy)

theorem popMin_in (v : ℚ) {m : List Point} (h : QIn V m) : QIn V (popMin v m) := by
  intro q hq
  unfold popMin at hq
  exact h q (List.mem_reverse.1 ((List.dropWhile_sublist _).subset (List.mem_reverse.1 hq)))

theorem initMin_in (lim : ℚ) : ∀ (is m : List Point), QIn V is → QIn V m →
    Post (fun r => QIn V r.1 ∧ QIn V r.2) (initMin lim m is)
  | [], m, _, _ => by simp only [initMin]; exact post_error
  | i :: is, m, hi, hm => by
    simp only [initMin]
    exact post_ite (fun _ => initMin_in lim is _ hi.tail
      (qin_append (popMin_in _ hm) (qin_cons hi.head qin_nil))) fun _ => post_ok ⟨hm, hi⟩

theorem enterMin_in {c : Bool} {m is : List Point} (hm : QIn V m) (hi : QIn V is) :
    Post (fun r => QIn V r.1 ∧ QIn V r.2) (enterMin c m is) := by
  unfold enterMin
  refine post_ite (fun _ => ?_) fun _ => post_ok ⟨hm, hi⟩
  split
  · exact post_error
  · exact post_ok ⟨qin_append (popMin_in _ hm) (qin_cons hi.head qin_nil), hi.tail⟩

theorem plateauMinLoop_in (hV : Vals B V) (a : ℚ) : ∀ (n : ℕ) (m is : List Point) (z : List Sample) (t : ℚ)
    (c e : Bool), QIn V m → QIn V is → LIn V z → Post (LIn V) (plateauMinLoop B a n m is z t c e)
  | 0, _, _, _, _, _, _, _, _, _ => by simp only [plateauMinLoop]; exact post_error
  | n + 1, m, is, z, t, c, e, hm, hi, hz => by
    simp only [plateauMinLoop]
    refine post_bind (popFront_in hm) fun m1 h1 => ?_
    refine post_bind (enterMin_in h1 hi) ?_
    rintro ⟨m2, is2⟩ ⟨h2, h3⟩
    have hz' : LIn V (⟨t, frontVal B m2, 0⟩ :: z) := lin_cons (pin_val (frontVal_in hV.big h2) _) hz
    dsimp only at h2 h3 ⊢
    have ih := plateauMinLoop_in hV a n
    split
    · exact post_ite (fun _ => ih _ _ _ _ _ _ h2 h3 hz') fun _ =>
        post_ite (fun _ => ih _ _ _ _ _ _ h2 h3 hz') fun _ => ih _ _ _ _ _ _ h2 h3 hz'
    · exact ih _ _ _ _ _ _ h2 h3 hz'
    · exact ih _ _ _ _ _ _ h2 h3 hz'
    · exact post_ok hz'

theorem plateauMin_in (hV : Vals B V) {x : Signal} (hx : SIn V x) (a : ℚ) :
    Post (SIn V) (plateauMin B x a) := by
  unfold plateauMin
  split
  · exact post_error
  · rename_i f r e
    have hf : PIn V f := hx f (by simp [e])
    refine post_bind (initMin_in _ _ _ (qin_cons hf.1 (peaksMin_in _ _ _ _ (lin_reverse hx) hV.big qin_nil))
      qin_nil) ?_
    rintro ⟨m, is⟩ ⟨h1, h2⟩
    dsimp only at h1 h2 ⊢
    split
    · exact post_error
    · refine post_bind (plateauMinLoop_in hV a _ _ _ _ _ _ _ h1 h2 lin_nil) fun z hz => ?_
      split
      · exact post_error
      · exact post_ok (lin_reverse (lin_ite hz.tail hz))

theorem boundedEv_in (hV : Vals B V) {x : Signal} (hx : SIn V x) (a : ℚ) :
    Post (SIn V) (computeBoundedEventually B x a) := by
  unfold computeBoundedEventually
  refine post_bind (plateauMax_in hV hx a) fun z1 h1 => ?_
  refine post_bind (resize_in hV hx _ _ hV.negB) fun z2 h2 => ?_
  refine post_bind (computeOr_in (sin_shift h2 _) h1) fun z3 h3 => ?_
  exact post_bind (computeOr_in hx h3) fun z h => simplify_in h

theorem boundedGlob_in (hV : Vals B V) {x : Signal} (hx : SIn V x) (a : ℚ) :
    Post (SIn V) (computeBoundedGlobally B x a) := by
  unfold computeBoundedGlobally
  refine post_bind (plateauMin_in hV hx a) fun z1 h1 => ?_
  refine post_bind (resize_in hV hx _ _ hV.big) fun z2 h2 => ?_
  refine post_bind (computeAnd_in (sin_shift h2 _) h1) fun z3 h3 => ?_
  exact post_bind (computeAnd_in hx h3) fun z h => simplify_in h

theorem sin_shift_ite {x : Signal} (hx : SIn V x) (a : ℚ) : SIn V (if 0 < a then shift x (-a) else x) := by
  split_ifs
  · exact sin_shift hx _
  · exact hx

theorem timedEv_in (hV : Vals B V) {x : Signal} (hx : SIn V x) (old : Signal) (a b : ℚ) :
    Post (SIn V) (computeTimedEventually B old x a b) := by
  unfold computeTimedEventually
  have hs := sin_shift_ite hx a
  exact post_ite (fun _ => post_ok lin_nil) fun _ => post_ite (fun _ => post_ok hs) fun _ =>
    post_ite (fun _ => computeEventually_in hV hs) fun _ => boundedEv_in hV hs _

theorem timedGlob_in (hV : Vals B V) {x : Signal} (hx : SIn V x) (old : Signal) (a b : ℚ) :
    Post (SIn V) (computeTimedGlobally B old x a b) := by
  unfold computeTimedGlobally
  have hs := sin_shift_ite hx a
  exact post_ite (fun _ => post_ok lin_nil) fun _ => post_ite (fun _ => post_ok hs) fun _ =>
    post_ite (fun _ => computeGlobally_in hV hs) fun _ => boundedGlob_in hV hs _

/-! ## Until -/

theorem segmentUntil_in (hV : Vals B V) {i : Sample} {z js : List Sample} (hi : PIn V i) (hz : LIn V z)
    (hj : LIn V js) (t : ℚ) {zm : ℚ} (hm : V zm) :
    Post (fun r => LIn V r.1 ∧ LIn V r.2) (segmentUntil B z i t js zm) := by
  unfold segmentUntil
  dsimp only
  refine post_ite (fun _ => ?_) fun _ => ?_
  · refine post_bind (segmentAnd_in hi lin_nil hj t) fun r1 h1 => ?_
    refine post_bind (partialEventually_in _ _ _ _ _ _ (lin_reverse h1.1) lin_nil hV.negB) fun r2 h2 => ?_
    refine post_bind (segmentOr_in (pin_val (v_fmin hm (hi.vat _)) _) hz (lin_reverse h2.1) t) fun r3 h3 => ?_
    exact post_ok ⟨h3.1, h1.2⟩
  · refine post_bind (partialEventually_in _ _ _ _ _ _ hj lin_nil hV.negB) fun r1 h1 => ?_
    refine post_bind (segmentAnd_in hi lin_nil (lin_reverse h1.1) t) fun r2 h2 => ?_
    refine post_bind (segmentAnd_in hi lin_nil (lin_cons (pin_val hm _) lin_nil) t) fun r3 h3 => ?_
    refine post_bind (partialOr_in _ _ _ _ _ (lin_reverse h3.1) hz (lin_reverse h2.1)) fun r4 h4 => ?_
    exact post_ok ⟨h4, h1.2⟩

theorem untilLoop_in (hV : Vals B V) (s : ℚ) : ∀ (is z js : List Sample) (t zm : ℚ), LIn V is → LIn V z →
    LIn V js → V zm → Post (LIn V) (untilLoop B s z is js t zm)
  | [], _, _, _, _, _, _, _, _ => by simp only [untilLoop]; exact post_error
  | i :: is, z, js, t, zm, hi, hz, hj, hm => by
    simp only [untilLoop]
    refine post_ite (fun _ => ?_) fun _ => post_ite (fun _ => ?_) fun _ => ?_
    · refine post_bind (segmentUntil_in hV hi.head hz hj t hm) ?_
      rintro ⟨z', js'⟩ ⟨h1, h2⟩
      dsimp only at h1 h2 ⊢
      split
      · exact untilLoop_in hV s is _ _ _ _ hi.tail h1 (lin_ite h2.tail h2) h1.head.1
      · exact post_error
    · exact post_bind (segmentUntil_in hV hi.head hz hj t hm) fun r h => post_ok h.1
    · exact post_bind (segmentUntil_in hV (pin_at hi.head _ _) hz hj t hm) fun r h => post_ok h.1

theorem computeUntil_in (hV : Vals B V) {x y : Signal} (hx : SIn V x) (hy : SIn V y) :
    Post (SIn V) (computeUntil B x y) := by
  unfold computeUntil
  refine post_bind (skip_in _ _ (lin_reverse hx)) fun is h1 => ?_
  refine post_bind (skip_in _ _ (lin_reverse hy)) fun js h2 => ?_
  exact post_bind (untilLoop_in hV _ _ _ _ _ _ h1 lin_nil h2 hV.negB) fun z h3 => simplify_in h3

theorem timedUntil_in (hV : Vals B V) {x y : Signal} (hx : SIn V x) (hy : SIn V y) (old : Signal) (a b : ℚ) :
    Post (SIn V) (computeTimedUntil B old x y a b) := by
  unfold computeTimedUntil
  refine post_ite (fun _ => post_ok lin_nil) fun _ => post_ite (fun _ => ?_) fun _ => ?_
  · refine post_ite (fun _ => computeUntil_in hV hx hy) fun _ =>
      post_ite (fun _ => computeGlobally_in hV hx) fun _ => ?_
    refine post_bind (boundedGlob_in hV hx a) fun z1 h1 => ?_
    refine post_bind (computeUntil_in hV hx hy) fun z2 h2 => ?_
    exact computeAnd_in h1 (sin_shift h2 _)
  · unfold computeTimedUntilF
    refine post_bind (boundedEv_in hV hy _) fun z2 h2 => ?_
    refine post_bind (computeUntil_in hV hx hy) fun z3 h3 => ?_
    refine post_bind (computeAnd_in h2 h3) fun z4 h4 => ?_
    refine post_ite (fun _ => ?_) fun _ => computeAnd_in hx h4
    exact post_bind (boundedGlob_in hV hx a) fun z1 h1 => computeAnd_in h1 (sin_shift h4 _)

end
end STLRom
