import Verif.Proofs.Select
import Verif.Model.RoundedRun

/-!
# Piecewise constant signals with values in a set, with rounding

As `Proofs/Select.lean`, for the rounded operations of `Model/Rounded.lean`: the numbers of `V` must
be fixed by the rounding.
-/

namespace STLRom
namespace Fp
open Signal Spec

/-- A set of values the rounded operations stay in. -/
structure Vals (rd : ℚ → ℚ) (B : ℚ) (V : ℚ → Prop) : Prop where
  big : V B
  zero : V 0
  neg : ∀ x, V x → V (-x)
  fix : ∀ x, V x → rd x = x

section
variable {rd : ℚ → ℚ} {B : ℚ} {V : ℚ → Prop}

theorem Vals.exact (h : Vals rd B V) : STLRom.Vals B V := ⟨h.big, h.zero, h.neg⟩

theorem Vals.negB (h : Vals rd B V) : V (-B) := h.neg _ h.big

theorem at_eq (hV : Vals rd B V) {p : Sample} (h : PIn V p) (t : ℚ) : valueAt rd p t = p.value := by
  simp [valueAt, h.2, hV.fix _ hV.zero, hV.fix _ h.1]

theorem vat (hV : Vals rd B V) {p : Sample} (h : PIn V p) (t : ℚ) : V (valueAt rd p t) := by
  rw [at_eq hV h]; exact h.1

theorem pin_at (hV : Vals rd B V) {p : Sample} (h : PIn V p) (t s : ℚ) :
    PIn V ⟨s, valueAt rd p t, p.derivative⟩ := ⟨vat hV h t, h.2⟩

theorem append_in {x : Signal} (hx : SIn V x) (t : ℚ) {v : ℚ} (d : ℚ) (hv : V v) :
    Post (SIn V) (appendSample rd .PREVIOUS x t v d) := STLRom.append_in hx t d hv

theorem sin_shift (hV : Vals rd B V) {x : Signal} (hx : SIn V x) (a : ℚ) : SIn V (shift rd x a) := by
  intro p hp
  obtain ⟨q, hq, rfl⟩ := List.mem_map.1 hp
  exact hx q hq

theorem simplifyLoop_in (hV : Vals rd B V) (b : ℚ) : ∀ (n : ℕ) (l : List Sample), LIn V l →
    Post (LIn V) (simplifyLoop rd b n l)
  | 0, [], _ | _ + 1, [], _ => by simp only [simplifyLoop]; exact post_error
  | 0, f :: r, h => by
    simp only [simplifyLoop]
    split_ifs
    · exact post_ok h
    · exact post_error
  | n + 1, f :: r, h => by
    simp only [simplifyLoop]
    split_ifs with h1
    · exact post_ok h
    · split
      · exact post_error
      · split_ifs
        · exact simplifyLoop_in hV b n _ (lin_append h.tail (lin_cons h.head lin_nil))
        · exact simplifyLoop_in hV b n _ h.tail

theorem simplify_in (hV : Vals rd B V) {x : Signal} (hx : SIn V x) : Post (SIn V) (simplify rd x) := by
  unfold simplify
  unfold SIn at hx
  split
  · exact post_error
  · rename_i p r e
    rw [e] at hx
    refine post_bind (simplifyLoop_in hV _ _ _ (lin_append hx.tail (lin_cons hx.head lin_nil))) ?_
    intro l hl
    split
    · exact post_error
    · rename_i b eb
      have hb := hl b (List.mem_of_getLast? eb)
      split_ifs
      · exact post_ok (lin_append hl (lin_cons (pin_val (vat hV hb _) _) lin_nil))
      · exact post_ok hl

theorem resizeFront_in (hV : Vals rd B V) {x : Signal} (hx : SIn V x) (s : ℚ) :
    Post (SIn V) (resizeFront rd x s) := by
  unfold resizeFront
  refine post_ite (fun _ => ?_) fun _ => ?_
  · split
    · exact post_error
    · rename_i p r e
      have hp : PIn V p := hx p (by simp [e])
      exact post_ok (lin_cons (pin_val hp.1 _) hx)
  · have h2 := trimFront_in s x.samples Sample.zero ⟨hV.zero, rfl⟩ hx
    split
    · rename_i f e
      rw [e] at h2
      exact post_ok (lin_cons (pin_val (vat hV h2.1 _) _) lin_nil)
    · rename_i f p r e
      rw [e] at h2
      exact post_ite (fun _ => post_ok (lin_cons (pin_at hV h2.1 _ _) h2.2)) fun _ => post_ok h2.2

theorem resize_in (hV : Vals rd B V) {x : Signal} (hx : SIn V x) (s t : ℚ) {v : ℚ} (hv : V v) :
    Post (SIn V) (resize rd x s t v) := by
  unfold resize
  refine post_ite (fun _ => post_ok lin_nil) fun _ => ?_
  refine post_bind (resizeFront_in hV hx s) fun y hy => ?_
  unfold resizeBack
  refine post_bind (Q := LIn V) ?_ fun l hl => post_ok (lin_ite (lin_cons (pin_val hv _) lin_nil) hl)
  refine post_ite (fun _ => ?_) fun _ => post_ok (trimBack_in _ hy)
  split
  · exact post_error
  · exact post_ite (fun _ => post_ok (lin_append hy (lin_cons (pin_val hv _) lin_nil)))
      fun _ => post_ok hy

theorem segmentAndLoop_in (hV : Vals rd B V) {i : Sample} (hi : PIn V i) : ∀ (js : List Sample) (z : List Sample) (t : ℚ)
    (c : Bool), LIn V js → LIn V z →
    Post (fun r => LIn V r.1 ∧ LIn V r.2.2.2) (segmentAndLoop rd i z t c js)
  | [], z, t, c, _, _ => by simp only [segmentAndLoop]; exact post_error
  | j :: js, z, t, c, hj, hz => by
    have hc : LIn V (if c then ⟨t, valueAt rd i t, i.derivative⟩ :: z else z) :=
      lin_ite (lin_cons (pin_at hV hi _ _) hz) hz
    have hj' : PIn V ⟨j.time, j.value, j.derivative⟩ := hj.head
    have ih := segmentAndLoop_in hV hi js
    simp only [segmentAndLoop]
    split_ifs
    · exact post_bind' fun t' => ih _ _ _ hj.tail (lin_cons hj' (lin_cons (pin_at hV hi _ _) hz))
    · exact ih _ _ _ hj.tail hz
    · exact ih _ _ _ hj.tail (lin_cons hj' (lin_cons (pin_at hV hi _ _) hz))
    · exact ih _ _ _ hj.tail (lin_cons hj' hz)
    · exact ih _ _ _ hj.tail hz
    · exact post_bind' fun t' => ih _ _ _ hj.tail (lin_cons (pin_at hV hj.head _ _) (lin_cons (pin_at hV hi _ _) hz))
    · exact post_bind' fun t' => ih _ _ _ hj.tail (lin_cons (pin_at hV hj.head _ _) hz)
    · exact ih _ _ _ hj.tail (lin_cons hj' (lin_cons (pin_at hV hi _ _) hz))
    · exact ih _ _ _ hj.tail (lin_cons hj' hz)
    · exact post_ok ⟨hz, hj⟩


theorem segmentAndLast_in (hV : Vals rd B V) {i j : Sample} {z : List Sample} (hi : PIn V i) (hj : PIn V j) (hz : LIn V z)
    (t : ℚ) (c : Bool) : Post (LIn V) (segmentAndLast rd i z t c j) := by
  have hc : LIn V (if c then ⟨t, valueAt rd i t, i.derivative⟩ :: z else z) :=
    lin_ite (lin_cons (pin_at hV hi _ _) hz) hz
  unfold segmentAndLast
  dsimp only
  refine post_ite (fun _ => ?_) fun _ => post_ite (fun _ => ?_) fun _ => ?_
  · exact post_ite (fun _ => post_bind' fun t' => post_ok (lin_cons (pin_at hV hj _ _) (lin_cons (pin_at hV hi _ _) hz)))
      fun _ => post_ok (lin_cons hi hz)
  · exact post_ite (fun _ => post_ok (lin_cons (pin_at hV hj _ _) hc)) fun _ => post_ok (lin_cons hi hz)
  · exact post_ite (fun _ => post_bind' fun t' => post_ok (lin_cons hi (lin_cons (pin_at hV hj _ _) hc)))
      fun _ => post_ok (lin_cons (pin_at hV hj _ _) hc)

theorem segmentAnd_in (hV : Vals rd B V) {i : Sample} {z js : List Sample} (hi : PIn V i) (hz : LIn V z) (hj : LIn V js) (t : ℚ) :
    Post (fun r => LIn V r.1 ∧ LIn V r.2) (segmentAnd rd z i t js) := by
  unfold segmentAnd
  refine post_bind (segmentAndLoop_in hV hi js z t false hj hz) ?_
  rintro ⟨z', t', c, js'⟩ ⟨h1, h2⟩
  dsimp only at h1 h2 ⊢
  split
  · exact post_error
  · exact post_bind (segmentAndLast_in hV hi h2.head h1 _ _) fun z'' h => post_ok ⟨h, h2⟩

theorem partialAnd_in (hV : Vals rd B V) (s : ℚ) : ∀ (is z js : List Sample) (t : ℚ), LIn V is → LIn V z → LIn V js →
    Post (LIn V) (partialAnd rd s z is js t)
  | [], z, js, t, _, _, _ => by simp only [partialAnd]; exact post_error
  | i :: is, z, js, t, hi, hz, hj => by
    simp only [partialAnd]
    refine post_ite (fun _ => ?_) fun _ => post_ite (fun _ => ?_) fun _ => ?_
    · refine post_bind (segmentAnd_in hV hi.head hz hj t) ?_
      rintro ⟨z', js'⟩ ⟨h1, h2⟩
      dsimp only at h1 h2 ⊢
      split
      · exact post_error
      · exact partialAnd_in hV s is _ _ _ hi.tail h1 (lin_ite h2.tail h2)
    · exact post_bind (segmentAnd_in hV hi.head hz hj t) fun r h => post_ok h.1
    · exact post_bind (segmentAnd_in hV (pin_at hV hi.head _ _) hz hj t) fun r h => post_ok h.1

theorem segmentOrLoop_in (hV : Vals rd B V) {i : Sample} (hi : PIn V i) : ∀ (js : List Sample) (z : List Sample) (t : ℚ)
    (c : Bool), LIn V js → LIn V z →
    Post (fun r => LIn V r.1 ∧ LIn V r.2.2.2) (segmentOrLoop rd i z t c js)
  | [], z, t, c, _, _ => by simp only [segmentOrLoop]; exact post_error
  | j :: js, z, t, c, hj, hz => by
    have hc : LIn V (if c then ⟨t, valueAt rd i t, i.derivative⟩ :: z else z) :=
      lin_ite (lin_cons (pin_at hV hi _ _) hz) hz
    have hj' : PIn V ⟨j.time, j.value, j.derivative⟩ := hj.head
    have ih := segmentOrLoop_in hV hi js
    simp only [segmentOrLoop]
    split_ifs
    · exact post_bind' fun t' => ih _ _ _ hj.tail (lin_cons hj' (lin_cons (pin_at hV hi _ _) hz))
    · exact ih _ _ _ hj.tail hz
    · exact ih _ _ _ hj.tail (lin_cons hj' (lin_cons (pin_at hV hi _ _) hz))
    · exact ih _ _ _ hj.tail (lin_cons hj' hz)
    · exact ih _ _ _ hj.tail hz
    · exact post_bind' fun t' => ih _ _ _ hj.tail (lin_cons (pin_at hV hj.head _ _) (lin_cons (pin_at hV hi _ _) hz))
    · exact post_bind' fun t' => ih _ _ _ hj.tail (lin_cons (pin_at hV hj.head _ _) hz)
    · exact ih _ _ _ hj.tail (lin_cons hj' (lin_cons (pin_at hV hi _ _) hz))
    · exact ih _ _ _ hj.tail (lin_cons hj' hz)
    · exact post_ok ⟨hz, hj⟩


theorem segmentOrLast_in (hV : Vals rd B V) {i j : Sample} {z : List Sample} (hi : PIn V i) (hj : PIn V j) (hz : LIn V z)
    (t : ℚ) (c : Bool) : Post (LIn V) (segmentOrLast rd i z t c j) := by
  have hc : LIn V (if c then ⟨t, valueAt rd i t, i.derivative⟩ :: z else z) :=
    lin_ite (lin_cons (pin_at hV hi _ _) hz) hz
  unfold segmentOrLast
  dsimp only
  refine post_ite (fun _ => ?_) fun _ => post_ite (fun _ => ?_) fun _ => ?_
  · exact post_ite (fun _ => post_bind' fun t' => post_ok (lin_cons (pin_at hV hj _ _) (lin_cons (pin_at hV hi _ _) hz)))
      fun _ => post_ok (lin_cons hi hz)
  · exact post_ite (fun _ => post_ok (lin_cons (pin_at hV hj _ _) hc)) fun _ => post_ok (lin_cons hi hz)
  · exact post_ite (fun _ => post_bind' fun t' => post_ok (lin_cons hi (lin_cons (pin_at hV hj _ _) hc)))
      fun _ => post_ok (lin_cons (pin_at hV hj _ _) hc)

theorem segmentOr_in (hV : Vals rd B V) {i : Sample} {z js : List Sample} (hi : PIn V i) (hz : LIn V z) (hj : LIn V js) (t : ℚ) :
    Post (fun r => LIn V r.1 ∧ LIn V r.2) (segmentOr rd z i t js) := by
  unfold segmentOr
  refine post_bind (segmentOrLoop_in hV hi js z t false hj hz) ?_
  rintro ⟨z', t', c, js'⟩ ⟨h1, h2⟩
  dsimp only at h1 h2 ⊢
  split
  · exact post_error
  · exact post_bind (segmentOrLast_in hV hi h2.head h1 _ _) fun z'' h => post_ok ⟨h, h2⟩

theorem partialOr_in (hV : Vals rd B V) (s : ℚ) : ∀ (is z js : List Sample) (t : ℚ), LIn V is → LIn V z → LIn V js →
    Post (LIn V) (partialOr rd s z is js t)
  | [], z, js, t, _, _, _ => by simp only [partialOr]; exact post_error
  | i :: is, z, js, t, hi, hz, hj => by
    simp only [partialOr]
    refine post_ite (fun _ => ?_) fun _ => post_ite (fun _ => ?_) fun _ => ?_
    · refine post_bind (segmentOr_in hV hi.head hz hj t) ?_
      rintro ⟨z', js'⟩ ⟨h1, h2⟩
      dsimp only at h1 h2 ⊢
      split
      · exact post_error
      · exact partialOr_in hV s is _ _ _ hi.tail h1 (lin_ite h2.tail h2)
    · exact post_bind (segmentOr_in hV hi.head hz hj t) fun r h => post_ok h.1
    · exact post_bind (segmentOr_in hV (pin_at hV hi.head _ _) hz hj t) fun r h => post_ok h.1

theorem computeAndM_in (hV : Vals rd B V) {x y : Signal} (hx : SIn V x) (hy : SIn V y) : Post (SIn V) (computeAndM rd x y) := by
  unfold computeAndM
  refine post_bind (skipGuarded_in _ _ (lin_reverse hx)) fun is h1 => ?_
  refine post_bind (skipGuarded_in _ _ (lin_reverse hy)) fun js h2 => ?_
  exact post_bind (partialAnd_in hV _ _ _ _ _ h1 lin_nil h2) fun z h3 => simplify_in hV h3

theorem computeOrM_in (hV : Vals rd B V) {x y : Signal} (hx : SIn V x) (hy : SIn V y) : Post (SIn V) (computeOrM rd x y) := by
  unfold computeOrM
  refine post_bind (skipGuarded_in _ _ (lin_reverse hx)) fun is h1 => ?_
  refine post_bind (skipGuarded_in _ _ (lin_reverse hy)) fun js h2 => ?_
  exact post_bind (partialOr_in hV _ _ _ _ _ h1 lin_nil h2) fun z h3 => simplify_in hV h3

theorem computeAnd_in (hV : Vals rd B V) {x y : Signal} (hx : SIn V x) (hy : SIn V y) : Post (SIn V) (computeAnd rd x y) := by
  unfold computeAnd
  refine post_bind (skip_in _ _ (lin_reverse hx)) fun is h1 => ?_
  refine post_bind (skip_in _ _ (lin_reverse hy)) fun js h2 => ?_
  exact post_bind (partialAnd_in hV _ _ _ _ _ h1 lin_nil h2) fun z h3 => simplify_in hV h3

theorem computeOr_in (hV : Vals rd B V) {x y : Signal} (hx : SIn V x) (hy : SIn V y) : Post (SIn V) (computeOr rd x y) := by
  unfold computeOr
  refine post_bind (skip_in _ _ (lin_reverse hx)) fun is h1 => ?_
  refine post_bind (skip_in _ _ (lin_reverse hy)) fun js h2 => ?_
  exact post_bind (partialOr_in hV _ _ _ _ _ h1 lin_nil h2) fun z h3 => simplify_in hV h3

theorem partialEventually_in (hV : Vals rd B V) (s : ℚ) : ∀ (is z : List Sample) (t : ℚ) (c : Bool) (zm : ℚ), LIn V is →
    LIn V z → V zm → Post (fun r => LIn V r.1 ∧ LIn V r.2) (partialEventually rd s z is t c zm)
  | [], z, t, c, zm, _, _, _ => by simp only [partialEventually]; exact post_error
  | i :: is, z, t, c, zm, hi, hz, hm => by
    have hc : LIn V (if c then ⟨t, zm, 0⟩ :: z else z) := lin_ite (lin_cons (pin_val hm _) hz) hz
    have ih := partialEventually_in hV s is
    simp only [partialEventually]
    refine post_ite (fun _ => ?_) fun _ => ?_
    · refine post_ite (fun _ => ?_) fun _ => post_ite (fun _ => ?_) fun _ => post_ite (fun _ => ?_) fun _ => ?_
      · exact post_ite (fun _ => ih _ _ _ _ hi.tail hc (vat hV hi.head _)) fun _ => ih _ _ _ _ hi.tail hz hm
      · exact ih _ _ _ _ hi.tail (lin_cons hi.head hc) hi.head.1
      · exact ih _ _ _ _ hi.tail hz hm
      · exact post_bind' fun d => ih _ _ _ _ hi.tail (lin_cons hi.head (lin_cons (pin_val hm _) hz)) hi.head.1
    · refine post_ite (fun _ => ?_) fun _ => post_ite (fun _ => ?_) fun _ => post_ite (fun _ => ?_) fun _ => ?_
      · exact post_ite (fun _ => post_ok ⟨lin_cons (pin_val (vat hV hi.head _) _) hc, hi⟩)
          fun _ => post_ok ⟨lin_cons (pin_val hm _) hz, hi⟩
      · exact post_ok ⟨lin_cons (pin_at hV hi.head _ _) hc, hi⟩
      · exact post_ok ⟨lin_cons (pin_val hm _) hz, hi⟩
      · exact post_bind' fun d =>
          post_ok ⟨lin_cons (pin_at hV hi.head _ _) (lin_cons (pin_val hm _) hz), hi⟩

theorem computeEventually_in (hV : Vals rd B V) {x : Signal} (hx : SIn V x) :
    Post (SIn V) (computeEventually rd B x) := by
  unfold computeEventually
  exact post_bind (partialEventually_in hV _ _ _ _ _ _ (lin_reverse hx) lin_nil hV.negB) fun r h => post_ok h.1

theorem computeGlobally_in (hV : Vals rd B V) {x : Signal} (hx : SIn V x) :
    Post (SIn V) (computeGlobally rd B x) := by
  unfold computeGlobally
  exact post_bind (computeEventually_in hV (sin_not hV.exact hx)) fun r h => post_ok (sin_not hV.exact h)

theorem peaksMax_in (hV : Vals rd B V) : ∀ (js : List Sample) (t v : ℚ) (y : List Point), LIn V js → V v → QIn V y →
    QIn V (peaksMax rd js t v y)
  | [], _, _, _, _, _, hy => hy
  | j :: js, t, v, y, hj, hv, hy =>
    peaksMax_in hV js _ _ _ hj.tail hj.head.1 (qin_cons (v_fmax hv (vat hV hj.head _)) hy)

theorem plateauMaxLoop_in (hV : Vals rd B V) (a : ℚ) : ∀ (n : ℕ) (m is : List Point) (z : List Sample) (t : ℚ)
    (c e : Bool), QIn V m → QIn V is → LIn V z → Post (LIn V) (plateauMaxLoop rd B a n m is z t c e)
  | 0, _, _, _, _, _, _, _, _, _ => by simp only [plateauMaxLoop]; exact post_error
  | n + 1, m, is, z, t, c, e, hm, hi, hz => by
    simp only [plateauMaxLoop]
    refine post_bind (popFront_in hm) fun m1 h1 => ?_
    refine post_bind (enterMax_in h1 hi) ?_
    rintro ⟨m2, is2⟩ ⟨h2, h3⟩
    have hz' : LIn V (⟨t, frontVal (-B) m2, 0⟩ :: z) := lin_cons (pin_val (frontVal_in hV.negB h2) _) hz
    dsimp only at h2 h3 ⊢
    have ih := plateauMaxLoop_in hV a n
    split
    · exact post_ite (fun _ => ih _ _ _ _ _ _ h2 h3 hz') fun _ =>
        post_ite (fun _ => ih _ _ _ _ _ _ h2 h3 hz') fun _ => ih _ _ _ _ _ _ h2 h3 hz'
    · exact ih _ _ _ _ _ _ h2 h3 hz'
    · exact ih _ _ _ _ _ _ h2 h3 hz'
    · exact post_ok hz'

theorem plateauMax_in (hV : Vals rd B V) {x : Signal} (hx : SIn V x) (a : ℚ) :
    Post (SIn V) (plateauMax rd B x a) := by
  unfold plateauMax
  split
  · exact post_error
  · rename_i f r e
    have hf : PIn V f := hx f (by simp [e])
    refine post_bind (initMax_in _ _ _ (qin_cons hf.1 (peaksMax_in hV _ _ _ _ (lin_reverse hx) hV.negB qin_nil))
      qin_nil) ?_
    rintro ⟨m, is⟩ ⟨h1, h2⟩
    dsimp only at h1 h2 ⊢
    split
    · exact post_error
    · refine post_bind (plateauMaxLoop_in hV a _ _ _ _ _ _ _ h1 h2 lin_nil) fun z hz => ?_
      split
      · exact post_error
      · exact post_ok (lin_reverse (lin_ite hz.tail hz))

theorem peaksMin_in (hV : Vals rd B V) : ∀ (js : List Sample) (t v : ℚ) (y : List Point), LIn V js → V v → QIn V y →
    QIn V (peaksMin rd js t v y)
  | [], _, _, _, _, _, hy => hy
  | j :: js, t, v, y, hj, hv, hy =>
    peaksMin_in hV js _ _ _ hj.tail hj.head.1 (qin_cons (v_fmin hv (vat hV hj.head _)) hy)

theorem plateauMinLoop_in (hV : Vals rd B V) (a : ℚ) : ∀ (n : ℕ) (m is : List Point) (z : List Sample) (t : ℚ)
    (c e : Bool), QIn V m → QIn V is → LIn V z → Post (LIn V) (plateauMinLoop rd B a n m is z t c e)
  | 0, _, _, _, _, _, _, _, _, _ => by simp only [plateauMinLoop]; exact post_error
  | n + 1, m, is, z, t, c, e, hm, hi, hz => by
    simp only [plateauMinLoop]
    refine post_bind (popFront_in hm) fun m1 h1 => ?_
    refine post_bind (enterMin_in h1 hi) ?_
    rintro ⟨m2, is2⟩ ⟨h2, h3⟩
    have hz' : LIn V (⟨t, frontVal B m2, 0⟩ :: z) := lin_cons (pin_val (frontVal_in hV.big h2) _) hz
    dsimp only at h2 h3 ⊢
    have ih := plateauMinLoop_in hV a n
    split
    · exact post_ite (fun _ => ih _ _ _ _ _ _ h2 h3 hz') fun _ =>
        post_ite (fun _ => ih _ _ _ _ _ _ h2 h3 hz') fun _ => ih _ _ _ _ _ _ h2 h3 hz'
    · exact ih _ _ _ _ _ _ h2 h3 hz'
    · exact ih _ _ _ _ _ _ h2 h3 hz'
    · exact post_ok hz'

theorem plateauMin_in (hV : Vals rd B V) {x : Signal} (hx : SIn V x) (a : ℚ) :
    Post (SIn V) (plateauMin rd B x a) := by
  unfold plateauMin
  split
  · exact post_error
  · rename_i f r e
    have hf : PIn V f := hx f (by simp [e])
    refine post_bind (initMin_in _ _ _ (qin_cons hf.1 (peaksMin_in hV _ _ _ _ (lin_reverse hx) hV.big qin_nil))
      qin_nil) ?_
    rintro ⟨m, is⟩ ⟨h1, h2⟩
    dsimp only at h1 h2 ⊢
    split
    · exact post_error
    · refine post_bind (plateauMinLoop_in hV a _ _ _ _ _ _ _ h1 h2 lin_nil) fun z hz => ?_
      split
      · exact post_error
      · exact post_ok (lin_reverse (lin_ite hz.tail hz))

theorem boundedEv_in (hV : Vals rd B V) {x : Signal} (hx : SIn V x) (a : ℚ) :
    Post (SIn V) (computeBoundedEventually rd B x a) := by
  unfold computeBoundedEventually
  refine post_bind (plateauMax_in hV hx a) fun z1 h1 => ?_
  refine post_bind (resize_in hV hx _ _ hV.negB) fun z2 h2 => ?_
  refine post_bind (computeOr_in hV (sin_shift hV h2 _) h1) fun z3 h3 => ?_
  exact post_bind (computeOr_in hV hx h3) fun z h => simplify_in hV h

theorem boundedGlob_in (hV : Vals rd B V) {x : Signal} (hx : SIn V x) (a : ℚ) :
    Post (SIn V) (computeBoundedGlobally rd B x a) := by
  unfold computeBoundedGlobally
  refine post_bind (plateauMin_in hV hx a) fun z1 h1 => ?_
  refine post_bind (resize_in hV hx _ _ hV.big) fun z2 h2 => ?_
  refine post_bind (computeAnd_in hV (sin_shift hV h2 _) h1) fun z3 h3 => ?_
  exact post_bind (computeAnd_in hV hx h3) fun z h => simplify_in hV h

theorem sin_shift_ite (hV : Vals rd B V) {x : Signal} (hx : SIn V x) (a : ℚ) : SIn V (if 0 < a then shift rd x (-a) else x) := by
  split_ifs
  · exact sin_shift hV hx _
  · exact hx

theorem timedEv_in (hV : Vals rd B V) {x : Signal} (hx : SIn V x) (old : Signal) (a b : ℚ) :
    Post (SIn V) (computeTimedEventually rd B old x a b) := by
  unfold computeTimedEventually
  have hs := sin_shift_ite hV hx a
  exact post_ite (fun _ => post_ok lin_nil) fun _ => post_ite (fun _ => post_ok hs) fun _ =>
    post_ite (fun _ => computeEventually_in hV hs) fun _ => boundedEv_in hV hs _

theorem timedGlob_in (hV : Vals rd B V) {x : Signal} (hx : SIn V x) (old : Signal) (a b : ℚ) :
    Post (SIn V) (computeTimedGlobally rd B old x a b) := by
  unfold computeTimedGlobally
  have hs := sin_shift_ite hV hx a
  exact post_ite (fun _ => post_ok lin_nil) fun _ => post_ite (fun _ => post_ok hs) fun _ =>
    post_ite (fun _ => computeGlobally_in hV hs) fun _ => boundedGlob_in hV hs _

theorem segmentUntil_in (hV : Vals rd B V) {i : Sample} {z js : List Sample} (hi : PIn V i) (hz : LIn V z)
    (hj : LIn V js) (t : ℚ) {zm : ℚ} (hm : V zm) :
    Post (fun r => LIn V r.1 ∧ LIn V r.2) (segmentUntil rd B z i t js zm) := by
  unfold segmentUntil
  dsimp only
  refine post_ite (fun _ => ?_) fun _ => ?_
  · refine post_bind (segmentAnd_in hV hi lin_nil hj t) fun r1 h1 => ?_
    refine post_bind (partialEventually_in hV _ _ _ _ _ _ (lin_reverse h1.1) lin_nil hV.negB) fun r2 h2 => ?_
    refine post_bind (segmentOr_in hV (pin_val (v_fmin hm (vat hV hi _)) _) hz (lin_reverse h2.1) t) fun r3 h3 => ?_
    exact post_ok ⟨h3.1, h1.2⟩
  · refine post_bind (partialEventually_in hV _ _ _ _ _ _ hj lin_nil hV.negB) fun r1 h1 => ?_
    refine post_bind (segmentAnd_in hV hi lin_nil (lin_reverse h1.1) t) fun r2 h2 => ?_
    refine post_bind (segmentAnd_in hV hi lin_nil (lin_cons (pin_val hm _) lin_nil) t) fun r3 h3 => ?_
    refine post_bind (partialOr_in hV _ _ _ _ _ (lin_reverse h3.1) hz (lin_reverse h2.1)) fun r4 h4 => ?_
    exact post_ok ⟨h4, h1.2⟩

theorem untilLoop_in (hV : Vals rd B V) (s : ℚ) : ∀ (is z js : List Sample) (t zm : ℚ), LIn V is → LIn V z →
    LIn V js → V zm → Post (LIn V) (untilLoop rd B s z is js t zm)
  | [], _, _, _, _, _, _, _, _ => by simp only [untilLoop]; exact post_error
  | i :: is, z, js, t, zm, hi, hz, hj, hm => by
    simp only [untilLoop]
    refine post_ite (fun _ => ?_) fun _ => post_ite (fun _ => ?_) fun _ => ?_
    · refine post_bind (segmentUntil_in hV hi.head hz hj t hm) ?_
      rintro ⟨z', js'⟩ ⟨h1, h2⟩
      dsimp only at h1 h2 ⊢
      split
      · exact untilLoop_in hV s is _ _ _ _ hi.tail h1 (lin_ite h2.tail h2) h1.head.1
      · exact post_error
    · exact post_bind (segmentUntil_in hV hi.head hz hj t hm) fun r h => post_ok h.1
    · exact post_bind (segmentUntil_in hV (pin_at hV hi.head _ _) hz hj t hm) fun r h => post_ok h.1

theorem computeUntil_in (hV : Vals rd B V) {x y : Signal} (hx : SIn V x) (hy : SIn V y) :
    Post (SIn V) (computeUntil rd B x y) := by
  unfold computeUntil
  refine post_bind (skip_in _ _ (lin_reverse hx)) fun is h1 => ?_
  refine post_bind (skip_in _ _ (lin_reverse hy)) fun js h2 => ?_
  exact post_bind (untilLoop_in hV _ _ _ _ _ _ h1 lin_nil h2 hV.negB) fun z h3 => simplify_in hV h3

theorem timedUntil_in (hV : Vals rd B V) {x y : Signal} (hx : SIn V x) (hy : SIn V y) (old : Signal) (a b : ℚ) :
    Post (SIn V) (computeTimedUntil rd B old x y a b) := by
  unfold computeTimedUntil
  refine post_ite (fun _ => post_ok lin_nil) fun _ => post_ite (fun _ => ?_) fun _ => ?_
  · refine post_ite (fun _ => computeUntil_in hV hx hy) fun _ =>
      post_ite (fun _ => computeGlobally_in hV hx) fun _ => ?_
    refine post_bind (boundedGlob_in hV hx a) fun z1 h1 => ?_
    refine post_bind (computeUntil_in hV hx hy) fun z2 h2 => ?_
    exact computeAnd_in hV h1 (sin_shift hV h2 _)
  · unfold computeTimedUntilF
    refine post_bind (boundedEv_in hV hy _) fun z2 h2 => ?_
    refine post_bind (computeUntil_in hV hx hy) fun z3 h3 => ?_
    refine post_bind (computeAnd_in hV h2 h3) fun z4 h4 => ?_
    refine post_ite (fun _ => ?_) fun _ => computeAnd_in hV hx h4
    exact post_bind (boundedGlob_in hV hx a) fun z1 h1 => computeAnd_in hV h1 (sin_shift hV h4 _)

end
end Fp
end STLRom
