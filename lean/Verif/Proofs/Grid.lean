import Verif.Model.RoundedRun
import Verif.Proofs.Select

/-!
# Rounded operations on piecewise constant signals that are exact

Signals whose samples have slope 0, values that rounding keeps and times on a grid that rounding keeps
are combined by the rounded operations as by the exact ones.
-/

namespace STLRom
namespace Fp
open Signal

/-- The rounded computation gives the same as the exact one, and a result has `P`. -/
def Sim {α : Type} (P : α → Prop) (m m' : M α) : Prop := m = m' ∧ Post P m'

section
variable {α β : Type} {P : α → Prop}

theorem sim_ok {a : α} (h : P a) : Sim P (.ok a) (.ok a) := ⟨rfl, post_ok h⟩

theorem sim_error {f : Fault} : Sim P (.error f) (.error f) := ⟨rfl, post_error⟩

theorem sim_refl {m : M α} (h : Post P m) : Sim P m m := ⟨rfl, h⟩

theorem sim_bind {Q : β → Prop} {m m' : M β} {f f' : β → M α} (h1 : Sim Q m m')
    (h2 : ∀ a, Q a → Sim P (f a) (f' a)) : Sim P (m >>= f) (m' >>= f') := by
  obtain ⟨rfl, h1⟩ := h1
  refine ⟨?_, post_bind h1 fun a ha => (h2 a ha).2⟩
  cases m with
  | error e => rfl
  | ok a => exact (h2 a (h1 a rfl)).1

theorem sim_bind_ok {Q : β → Prop} {m m' : M β} {f f' : β → M α} (h1 : Sim Q m m')
    (h2 : ∀ a, m' = .ok a → Q a → Sim P (f a) (f' a)) : Sim P (m >>= f) (m' >>= f') :=
  sim_bind (Q := fun a => m' = .ok a ∧ Q a) ⟨h1.1, fun a ha => ⟨ha, h1.2 a ha⟩⟩ fun a h => h2 a h.1 h.2

theorem sim_ite {c c' : Prop} [Decidable c] [Decidable c'] {a a' b b' : M α} (e : c ↔ c')
    (h1 : c' → Sim P a a') (h2 : ¬ c' → Sim P b b') :
    Sim P (if c then a else b) (if c' then a' else b') := by
  by_cases h : c'
  · rw [if_pos h, if_pos (e.2 h)]; exact h1 h
  · rw [if_neg h, if_neg fun h' => h (e.1 h')]; exact h2 h

theorem sim_mono {Q : α → Prop} {m m' : M α} (h : ∀ a, Q a → P a) (h1 : Sim Q m m') : Sim P m m' :=
  ⟨h1.1, post_mono h h1.2⟩

end

/-- `rd` keeps `B`, 0, opposites of numbers it keeps, and the numbers of `G` up to `R`; `G` is closed
under addition and its elements are further apart than the tolerance of `Signal::resize`. -/
structure Calc (rd : ℚ → ℚ) (B R : ℚ) (G : ℚ → Prop) : Prop where
  big : rd B = B
  neg : ∀ x, rd x = x → rd (-x) = -x
  zero : rd 0 = 0
  gzero : G 0
  gadd : ∀ x y, G x → G y → G (x + y)
  gneg : ∀ x, G x → G (-x)
  fix : ∀ t, G t → |t| ≤ R → rd t = t
  tol : ∀ s t, G s → G t → |s| ≤ R → |t| ≤ R → (t < rd (s - rd tol) ↔ t < s - tol)

/-- A time on the grid, not beyond `r`. -/
def U (G : ℚ → Prop) (r t : ℚ) : Prop := G t ∧ |t| ≤ r

/-- A sample with slope 0, a value that rounding keeps, and a time on the grid. -/
def PG (rd : ℚ → ℚ) (G : ℚ → Prop) (r : ℚ) (p : Sample) : Prop :=
  rd p.value = p.value ∧ p.derivative = 0 ∧ U G r p.time

/-- A list of such samples. -/
def LG (rd : ℚ → ℚ) (G : ℚ → Prop) (r : ℚ) (l : List Sample) : Prop := ∀ p ∈ l, PG rd G r p

/-- A signal of such samples. -/
def SG (rd : ℚ → ℚ) (G : ℚ → Prop) (r : ℚ) (x : Signal) : Prop :=
  LG rd G r x.samples ∧ U G r x.beginTime ∧ U G r x.endTime

section
variable {rd : ℚ → ℚ} {B R r q : ℚ} {G : ℚ → Prop}

theorem Calc.vals (h : Calc rd B R G) : Vals B fun v => rd v = v := ⟨h.big, h.zero, h.neg⟩

theorem Calc.negB (h : Calc rd B R G) : rd (-B) = -B := h.neg _ h.big

theorem U.mono {t : ℚ} (h : U G r t) (hr : r ≤ q) : U G q t := ⟨h.1, h.2.trans hr⟩

theorem U.add {s t : ℚ} (hc : Calc rd B R G) (h : U G r s) (h' : U G q t) : U G (r + q) (s + t) :=
  ⟨hc.gadd _ _ h.1 h'.1, (abs_add_le _ _).trans (add_le_add h.2 h'.2)⟩

theorem U.neg {t : ℚ} (hc : Calc rd B R G) (h : U G r t) : U G r (-t) := ⟨hc.gneg _ h.1, by rw [abs_neg]; exact h.2⟩

theorem U.sub {s t : ℚ} (hc : Calc rd B R G) (h : U G r s) (h' : U G q t) : U G (r + q) (s - t) := by
  rw [sub_eq_add_neg]; exact h.add hc (h'.neg hc)

theorem U.fix {t : ℚ} (hc : Calc rd B R G) (h : U G r t) (hr : r ≤ R) : rd t = t := hc.fix _ h.1 (h.2.trans hr)

theorem u_zero (hc : Calc rd B R G) (hr : 0 ≤ r) : U G r 0 := ⟨hc.gzero, by simpa using hr⟩

theorem u_fmax {s t : ℚ} (h : U G r s) (h' : U G r t) : U G r (fmax s t) := by
  unfold fmax; split_ifs <;> assumption

theorem u_fmin {s t : ℚ} (h : U G r s) (h' : U G r t) : U G r (fmin s t) := by
  unfold fmin; split_ifs <;> assumption

theorem u_max {s t : ℚ} (h : U G r s) (h' : U G r t) : U G r (max s t) := by
  rcases max_choice s t with e | e <;> rw [e] <;> assumption

theorem u_min {s t : ℚ} (h : U G r s) (h' : U G r t) : U G r (min s t) := by
  rcases min_choice s t with e | e <;> rw [e] <;> assumption

theorem u_ite {c : Prop} [Decidable c] {s t : ℚ} (h : U G r s) (h' : U G r t) : U G r (if c then s else t) := by
  split_ifs <;> assumption

theorem PG.mono {p : Sample} (h : PG rd G r p) (hr : r ≤ q) : PG rd G q p := ⟨h.1, h.2.1, h.2.2.mono hr⟩

theorem LG.mono {l : List Sample} (h : LG rd G r l) (hr : r ≤ q) : LG rd G q l := fun p hp => (h p hp).mono hr

theorem SG.mono {x : Signal} (h : SG rd G r x) (hr : r ≤ q) : SG rd G q x :=
  ⟨h.1.mono hr, h.2.1.mono hr, h.2.2.mono hr⟩

theorem PG.val {p : Sample} (h : PG rd G r p) (t : ℚ) : p.valueAt t = p.value := by
  simp [Sample.valueAt, h.2.1]

theorem PG.fval {p : Sample} (hc : Calc rd B R G) (h : PG rd G r p) (t : ℚ) : valueAt rd p t = p.value := by
  simp [valueAt, h.2.1, hc.zero, h.1]

theorem pg_val {v s : ℚ} (h : rd v = v) (hs : U G r s) : PG rd G r ⟨s, v, 0⟩ := ⟨h, rfl, hs⟩

theorem pg_at {p : Sample} {s : ℚ} (h : PG rd G r p) (hs : U G r s) : PG rd G r ⟨s, p.value, p.derivative⟩ :=
  ⟨h.1, h.2.1, hs⟩

theorem lg_nil : LG rd G r [] := by simp [LG]

theorem lg_cons {p : Sample} {l : List Sample} (h : PG rd G r p) (hl : LG rd G r l) : LG rd G r (p :: l) := by
  intro q hq
  rcases List.mem_cons.1 hq with rfl | hq
  · exact h
  · exact hl q hq

theorem LG.head {p : Sample} {l : List Sample} (h : LG rd G r (p :: l)) : PG rd G r p := h p (by simp)

theorem LG.tail {p : Sample} {l : List Sample} (h : LG rd G r (p :: l)) : LG rd G r l :=
  fun q hq => h q (by simp [hq])

theorem lg_append {l m : List Sample} (h : LG rd G r l) (hm : LG rd G r m) : LG rd G r (l ++ m) := by
  intro q hq
  rcases List.mem_append.1 hq with hq | hq
  · exact h q hq
  · exact hm q hq

theorem lg_reverse {l : List Sample} (h : LG rd G r l) : LG rd G r l.reverse :=
  fun q hq => h q (List.mem_reverse.1 hq)

theorem lg_ite {c : Prop} [Decidable c] {l m : List Sample} (h : LG rd G r l) (hm : LG rd G r m) :
    LG rd G r (if c then l else m) := by
  split_ifs
  · exact h
  · exact hm

theorem sg_not (hc : Calc rd B R G) {x : Signal} (hx : SG rd G r x) : SG rd G r (computeNot x) := by
  refine ⟨fun p hp => ?_, hx.2⟩
  obtain ⟨q, hq, rfl⟩ := List.mem_map.1 hp
  obtain ⟨h1, h2, h3⟩ := hx.1 q hq
  exact ⟨hc.neg _ h1, by simp [h2], h3⟩

theorem shift_sim (hc : Calc rd B R G) {x : Signal} {a : ℚ} (hx : SG rd G r x) (ha : U G q a) (hr : r + q ≤ R) :
    shift rd x a = x.shift a ∧ SG rd G (r + q) (x.shift a) := by
  have h : ∀ t, U G r t → rd (t + a) = t + a := fun t ht => (ht.add hc ha).fix hc hr
  refine ⟨?_, fun p hp => ?_, hx.2.1.add hc ha, hx.2.2.add hc ha⟩
  · unfold shift Signal.shift
    rw [h _ hx.2.1, h _ hx.2.2]
    congr 1
    refine List.map_congr_left fun p hp => ?_
    rw [h _ (hx.1 p hp).2.2]
  · obtain ⟨s, hs, rfl⟩ := List.mem_map.1 hp
    obtain ⟨h1, h2, h3⟩ := hx.1 s hs
    exact ⟨h1, h2, h3.add hc ha⟩

theorem cross (hc : Calc rd B R G) {p p' : Sample} (h : PG rd G r p) (h' : PG rd G r p') :
    Sim (fun _ => False) (timeIntersect rd p p') (p.timeIntersect p') := by
  have e1 : timeIntersect rd p p' = .error .nonfinite := by
    simp [timeIntersect, qdiv, h.2.1, h'.2.1, hc.zero]
  have e2 : p.timeIntersect p' = .error .nonfinite := by
    simp [Sample.timeIntersect, STLRom.qdiv, h.2.1, h'.2.1]
  rw [e1, e2]
  exact sim_error

theorem simplifyLoop_sim (hc : Calc rd B R G) (b : ℚ) : ∀ (n : ℕ) (l : List Sample), LG rd G r l →
    Sim (LG rd G r) (simplifyLoop rd b n l) (Signal.simplifyLoop b n l)
  | 0, [], _ | _ + 1, [], _ => by simp only [simplifyLoop, Signal.simplifyLoop]; exact sim_error
  | 0, f :: t, h => by
    simp only [simplifyLoop, Signal.simplifyLoop]
    exact sim_ite Iff.rfl (fun _ => sim_ok h) fun _ => sim_error
  | n + 1, f :: t, h => by
    simp only [simplifyLoop, Signal.simplifyLoop]
    refine sim_ite Iff.rfl (fun _ => sim_ok h) fun _ => ?_
    cases e : (f :: t).getLast? with
    | none => exact sim_error
    | some p =>
      have hp := h p (List.mem_of_getLast? e)
      simp only [hp.val, hp.fval hc]
      exact sim_ite Iff.rfl
        (fun _ => simplifyLoop_sim hc b n _ (lg_append h.tail (lg_cons h.head lg_nil)))
        fun _ => simplifyLoop_sim hc b n _ h.tail

theorem simplify_sim (hc : Calc rd B R G) {x : Signal} (hx : SG rd G r x) :
    Sim (SG rd G r) (simplify rd x) x.simplify := by
  obtain ⟨l, b, e⟩ := x
  obtain ⟨hl, hb, he⟩ := hx
  simp only at hl hb he
  unfold simplify Signal.simplify
  cases l with
  | nil => exact sim_error
  | cons p t =>
    simp only
    refine sim_bind (simplifyLoop_sim hc _ _ _ (lg_append hl.tail (lg_cons hl.head lg_nil))) fun l' hl' => ?_
    cases e' : l'.getLast? with
    | none => exact sim_error
    | some p =>
      have hp := hl' p (List.mem_of_getLast? e')
      simp only [hp.val, hp.fval hc]
      exact sim_ite Iff.rfl (fun _ => sim_ok ⟨lg_append hl' (lg_cons (pg_val hp.1 he) lg_nil), hb, he⟩)
        fun _ => sim_ok ⟨hl', hb, he⟩

theorem trimFront_lg (s : ℚ) : ∀ (l : List Sample) (f : Sample), PG rd G r f → LG rd G r l →
    PG rd G r (trimFront s f l).1 ∧ LG rd G r (trimFront s f l).2
  | [], f, hf, _ => ⟨hf, lg_nil⟩
  | p :: t, f, hf, h => by
    simp only [trimFront]
    split_ifs
    · exact trimFront_lg s t p h.head h.tail
    · exact ⟨hf, h⟩

theorem trimBack_lg (t : ℚ) {l : List Sample} (h : LG rd G r l) : LG rd G r (trimBack t l) := by
  intro q hq
  unfold trimBack at hq
  exact h q (List.mem_reverse.1 ((List.dropWhile_sublist _).subset (List.mem_reverse.1 hq)))

theorem resizeFront_sim (hc : Calc rd B R G) (h0 : 0 ≤ r) {x : Signal} (hx : SG rd G r x) {s : ℚ} (hs : U G r s) :
    Sim (SG rd G r) (resizeFront rd x s) (x.resizeFront s) := by
  obtain ⟨l, b, e⟩ := x
  obtain ⟨hl, hb, he⟩ := hx
  simp only at hl hb he
  unfold resizeFront Signal.resizeFront
  refine sim_ite Iff.rfl (fun _ => ?_) fun _ => ?_
  · cases l with
    | nil => exact sim_error
    | cons p t => exact sim_ok ⟨lg_cons (pg_val hl.head.1 hs) hl, hb, he⟩
  · have hz : PG rd G r Sample.zero := ⟨hc.zero, rfl, u_zero hc h0⟩
    have h2 := trimFront_lg s l Sample.zero hz hl
    rcases e2 : trimFront s Sample.zero l with ⟨f, _ | ⟨p, t⟩⟩
    · rw [e2] at h2
      simp only [h2.1.val, h2.1.fval hc]
      exact sim_ok ⟨lg_cons (pg_val h2.1.1 hs) lg_nil, hb, u_ite hs he⟩
    · rw [e2] at h2
      simp only [h2.1.val, h2.1.fval hc]
      exact sim_ite Iff.rfl (fun _ => sim_ok ⟨lg_cons (pg_at h2.1 hs) h2.2, hb, he⟩)
        fun _ => sim_ok ⟨h2.2, hb, he⟩

theorem resizeBack_sg {x : Signal} (hx : SG rd G r x) {s t v : ℚ} (hs : U G r s) (ht : U G r t) (hv : rd v = v) :
    Post (SG rd G r) (x.resizeBack s t v) := by
  unfold resizeBack
  refine post_bind (Q := LG rd G r) ?_
    fun l hl => post_ok ⟨lg_ite (lg_cons (pg_val hv hs) lg_nil) hl, hs, ht⟩
  refine post_ite (fun _ => ?_) fun _ => post_ok (trimBack_lg _ hx.1)
  split
  · exact post_error
  · exact post_ite (fun _ => post_ok (lg_append hx.1 (lg_cons (pg_val hv hx.2.2) lg_nil)))
      fun _ => post_ok hx.1

theorem resize_sim' (hc : Calc rd B R G) (h0 : 0 ≤ r) (hr : r ≤ R) {x : Signal} (hx : SG rd G r x) {s t v : ℚ}
    (hs : U G r s) (ht : U G R t) (ht' : s ≤ t → U G r t) (hv : rd v = v) :
    Sim (SG rd G r) (resize rd x s t v) (x.resize s t v) := by
  unfold resize Signal.resize
  refine sim_ite (hc.tol s t hs.1 ht.1 (hs.2.trans hr) ht.2)
    (fun _ => sim_ok ⟨lg_nil, u_zero hc h0, u_zero hc h0⟩) fun _ => ?_
  refine sim_bind (resizeFront_sim hc h0 hx hs) fun y hy => sim_refl (resizeBack_sg hy hs ?_ hv)
  split_ifs with h
  · exact hs
  · exact ht' (not_lt.1 h)

theorem resize_sim (hc : Calc rd B R G) (h0 : 0 ≤ r) (hr : r ≤ R) {x : Signal} (hx : SG rd G r x) {s t v : ℚ}
    (hs : U G r s) (ht : U G r t) (hv : rd v = v) : Sim (SG rd G r) (resize rd x s t v) (x.resize s t v) :=
  resize_sim' hc h0 hr hx hs (ht.mono hr) (fun _ => ht) hv

theorem append_previous (rd : ℚ → ℚ) (x : Signal) (t v d : ℚ) :
    appendSample rd .PREVIOUS x t v d = x.appendSample .PREVIOUS t v 0 := by
  unfold appendSample Signal.appendSample
  rfl

theorem append_slope (x : Signal) (t v d : ℚ) :
    x.appendSample .PREVIOUS t v d = x.appendSample .PREVIOUS t v 0 := by
  unfold Signal.appendSample
  rfl

theorem append_sg {x : Signal} (hx : SG rd G r x) {t v : ℚ} (ht : U G r t) (hv : rd v = v) :
    Post (SG rd G r) (x.appendSample .PREVIOUS t v 0) := by
  unfold Signal.appendSample
  refine post_ite (fun _ => post_ok hx) fun _ => ?_
  dsimp only
  exact post_ite (fun _ => post_ok ⟨lg_cons (pg_val hv ht) lg_nil, ht, ht⟩)
    fun _ => post_ok ⟨lg_append hx.1 (lg_cons (pg_val hv ht) lg_nil), hx.2.1, ht⟩

theorem append_sim {x : Signal} (hx : SG rd G r x) {t v d d' : ℚ} (ht : U G r t) (hv : rd v = v) :
    Sim (SG rd G r) (appendSample rd .PREVIOUS x t v d) (x.appendSample .PREVIOUS t v d') := by
  rw [append_previous, append_slope _ _ _ d']
  exact sim_refl (append_sg hx ht hv)

/-! ## Conjunction and disjunction -/

theorem segmentAndLoop_sim (hc : Calc rd B R G) {i : Sample} (hi : PG rd G r i) : ∀ (js : List Sample)
    (z : List Sample) (t : ℚ) (c : Bool), LG rd G r js → LG rd G r z → U G r t →
    Sim (fun a => LG rd G r a.1 ∧ U G r a.2.1 ∧ LG rd G r a.2.2.2) (segmentAndLoop rd i z t c js)
      (Signal.segmentAndLoop i z t c js)
  | [], z, t, c, _, _, _ => by simp only [segmentAndLoop, Signal.segmentAndLoop]; exact sim_error
  | j :: js, z, t, c, hj, hz, ht => by
    have hj' : PG rd G r ⟨j.time, j.value, j.derivative⟩ := hj.head
    have hi' := pg_at hi ht
    have ih := segmentAndLoop_sim hc hi js
    have hjt := hj.head.2.2
    simp only [segmentAndLoop, Signal.segmentAndLoop, hi.val, hi.fval hc, hj.head.val, hj.head.fval hc]
    split_ifs
    · exact sim_bind (cross hc hi hj.head) fun _ h => h.elim
    · exact ih _ _ _ hj.tail hz hjt
    · exact ih _ _ _ hj.tail (lg_cons hj' (lg_cons hi' hz)) hjt
    · exact ih _ _ _ hj.tail (lg_cons hj' hz) hjt
    · exact ih _ _ _ hj.tail hz hjt
    · exact ih _ _ _ hj.tail (lg_cons hj' (lg_cons hi' hz)) hjt
    · exact ih _ _ _ hj.tail (lg_cons hj' hz) hjt
    · exact sim_ok ⟨hz, ht, hj⟩

theorem segmentAndLast_sim (hc : Calc rd B R G) {i j : Sample} {z : List Sample} (hi : PG rd G r i)
    (hj : PG rd G r j) (hz : LG rd G r z) {t : ℚ} (ht : U G r t) (c : Bool) :
    Sim (LG rd G r) (segmentAndLast rd i z t c j) (Signal.segmentAndLast i z t c j) := by
  have hk : LG rd G r (if c then ⟨t, i.value, i.derivative⟩ :: z else z) :=
    lg_ite (lg_cons (pg_at hi ht) hz) hz
  simp only [segmentAndLast, Signal.segmentAndLast, hi.val, hi.fval hc, hj.val, hj.fval hc]
  refine sim_ite Iff.rfl (fun _ => ?_) fun _ => sim_ite Iff.rfl (fun _ => ?_) fun _ => ?_
  · exact sim_ite Iff.rfl (fun _ => sim_bind (cross hc hi hj) fun _ h => h.elim)
      fun _ => sim_ok (lg_cons hi hz)
  · exact sim_ite Iff.rfl (fun _ => sim_ok (lg_cons (pg_at hj hi.2.2) hk)) fun _ => sim_ok (lg_cons hi hz)
  · exact sim_ite Iff.rfl (fun _ => sim_bind (cross hc hi hj) fun _ h => h.elim)
      fun _ => sim_ok (lg_cons (pg_at hj hi.2.2) hk)

theorem segmentAnd_sim (hc : Calc rd B R G) {i : Sample} {z js : List Sample} (hi : PG rd G r i)
    (hz : LG rd G r z) (hj : LG rd G r js) {t : ℚ} (ht : U G r t) :
    Sim (fun a => LG rd G r a.1 ∧ LG rd G r a.2) (segmentAnd rd z i t js) (Signal.segmentAnd z i t js) := by
  unfold segmentAnd Signal.segmentAnd
  refine sim_bind (segmentAndLoop_sim hc hi js z t false hj hz ht) ?_
  rintro ⟨z', t', c, js'⟩ ⟨h1, h2, h3⟩
  dsimp only at h1 h2 h3 ⊢
  cases js' with
  | nil => exact sim_error
  | cons j js' => exact sim_bind (segmentAndLast_sim hc hi h3.head h1 h2 _) fun z'' h => sim_ok ⟨h, h3⟩

theorem partialAnd_sim (hc : Calc rd B R G) {s : ℚ} (hs : U G r s) : ∀ (is z js : List Sample) (t : ℚ),
    LG rd G r is → LG rd G r z → LG rd G r js → U G r t →
    Sim (LG rd G r) (partialAnd rd s z is js t) (Signal.partialAnd s z is js t)
  | [], z, js, t, _, _, _, _ => by simp only [partialAnd, Signal.partialAnd]; exact sim_error
  | i :: is, z, js, t, hi, hz, hj, ht => by
    simp only [partialAnd, Signal.partialAnd, hi.head.val, hi.head.fval hc]
    refine sim_ite Iff.rfl (fun _ => ?_) fun _ => sim_ite Iff.rfl (fun _ => ?_) fun _ => ?_
    · refine sim_bind (segmentAnd_sim hc hi.head hz hj ht) ?_
      rintro ⟨z', js'⟩ ⟨h1, h2⟩
      dsimp only at h1 h2 ⊢
      cases js' with
      | nil => exact sim_error
      | cons j js' => exact partialAnd_sim hc hs is _ _ _ hi.tail h1 (lg_ite h2.tail h2) hi.head.2.2
    · exact sim_bind (segmentAnd_sim hc hi.head hz hj ht) fun a h => sim_ok h.1
    · exact sim_bind (segmentAnd_sim hc (pg_at hi.head hs) hz hj ht) fun a h => sim_ok h.1

theorem segmentOrLoop_sim (hc : Calc rd B R G) {i : Sample} (hi : PG rd G r i) : ∀ (js : List Sample)
    (z : List Sample) (t : ℚ) (c : Bool), LG rd G r js → LG rd G r z → U G r t →
    Sim (fun a => LG rd G r a.1 ∧ U G r a.2.1 ∧ LG rd G r a.2.2.2) (segmentOrLoop rd i z t c js)
      (Signal.segmentOrLoop i z t c js)
  | [], z, t, c, _, _, _ => by simp only [segmentOrLoop, Signal.segmentOrLoop]; exact sim_error
  | j :: js, z, t, c, hj, hz, ht => by
    have hj' : PG rd G r ⟨j.time, j.value, j.derivative⟩ := hj.head
    have hi' := pg_at hi ht
    have ih := segmentOrLoop_sim hc hi js
    have hjt := hj.head.2.2
    simp only [segmentOrLoop, Signal.segmentOrLoop, hi.val, hi.fval hc, hj.head.val, hj.head.fval hc]
    split_ifs
    · exact sim_bind (cross hc hi hj.head) fun _ h => h.elim
    · exact ih _ _ _ hj.tail hz hjt
    · exact ih _ _ _ hj.tail (lg_cons hj' (lg_cons hi' hz)) hjt
    · exact ih _ _ _ hj.tail (lg_cons hj' hz) hjt
    · exact ih _ _ _ hj.tail hz hjt
    · exact ih _ _ _ hj.tail (lg_cons hj' (lg_cons hi' hz)) hjt
    · exact ih _ _ _ hj.tail (lg_cons hj' hz) hjt
    · exact sim_ok ⟨hz, ht, hj⟩

theorem segmentOrLast_sim (hc : Calc rd B R G) {i j : Sample} {z : List Sample} (hi : PG rd G r i)
    (hj : PG rd G r j) (hz : LG rd G r z) {t : ℚ} (ht : U G r t) (c : Bool) :
    Sim (LG rd G r) (segmentOrLast rd i z t c j) (Signal.segmentOrLast i z t c j) := by
  have hk : LG rd G r (if c then ⟨t, i.value, i.derivative⟩ :: z else z) :=
    lg_ite (lg_cons (pg_at hi ht) hz) hz
  simp only [segmentOrLast, Signal.segmentOrLast, hi.val, hi.fval hc, hj.val, hj.fval hc]
  refine sim_ite Iff.rfl (fun _ => ?_) fun _ => sim_ite Iff.rfl (fun _ => ?_) fun _ => ?_
  · exact sim_ite Iff.rfl (fun _ => sim_bind (cross hc hi hj) fun _ h => h.elim)
      fun _ => sim_ok (lg_cons hi hz)
  · exact sim_ite Iff.rfl (fun _ => sim_ok (lg_cons (pg_at hj hi.2.2) hk)) fun _ => sim_ok (lg_cons hi hz)
  · exact sim_ite Iff.rfl (fun _ => sim_bind (cross hc hi hj) fun _ h => h.elim)
      fun _ => sim_ok (lg_cons (pg_at hj hi.2.2) hk)

theorem segmentOr_sim (hc : Calc rd B R G) {i : Sample} {z js : List Sample} (hi : PG rd G r i)
    (hz : LG rd G r z) (hj : LG rd G r js) {t : ℚ} (ht : U G r t) :
    Sim (fun a => LG rd G r a.1 ∧ LG rd G r a.2) (segmentOr rd z i t js) (Signal.segmentOr z i t js) := by
  unfold segmentOr Signal.segmentOr
  refine sim_bind (segmentOrLoop_sim hc hi js z t false hj hz ht) ?_
  rintro ⟨z', t', c, js'⟩ ⟨h1, h2, h3⟩
  dsimp only at h1 h2 h3 ⊢
  cases js' with
  | nil => exact sim_error
  | cons j js' => exact sim_bind (segmentOrLast_sim hc hi h3.head h1 h2 _) fun z'' h => sim_ok ⟨h, h3⟩

theorem partialOr_sim (hc : Calc rd B R G) {s : ℚ} (hs : U G r s) : ∀ (is z js : List Sample) (t : ℚ),
    LG rd G r is → LG rd G r z → LG rd G r js → U G r t →
    Sim (LG rd G r) (partialOr rd s z is js t) (Signal.partialOr s z is js t)
  | [], z, js, t, _, _, _, _ => by simp only [partialOr, Signal.partialOr]; exact sim_error
  | i :: is, z, js, t, hi, hz, hj, ht => by
    simp only [partialOr, Signal.partialOr, hi.head.val, hi.head.fval hc]
    refine sim_ite Iff.rfl (fun _ => ?_) fun _ => sim_ite Iff.rfl (fun _ => ?_) fun _ => ?_
    · refine sim_bind (segmentOr_sim hc hi.head hz hj ht) ?_
      rintro ⟨z', js'⟩ ⟨h1, h2⟩
      dsimp only at h1 h2 ⊢
      cases js' with
      | nil => exact sim_error
      | cons j js' => exact partialOr_sim hc hs is _ _ _ hi.tail h1 (lg_ite h2.tail h2) hi.head.2.2
    · exact sim_bind (segmentOr_sim hc hi.head hz hj ht) fun a h => sim_ok h.1
    · exact sim_bind (segmentOr_sim hc (pg_at hi.head hs) hz hj ht) fun a h => sim_ok h.1

theorem skipGuarded_lg (e : ℚ) : ∀ l : List Sample, LG rd G r l → Post (LG rd G r) (skipGuarded e l)
  | [], _ => by simp only [skipGuarded]; exact post_error
  | [p], h => by simp only [skipGuarded]; exact post_ok h
  | p :: q :: t, h => by
    simp only [skipGuarded]
    exact post_ite (fun _ => skipGuarded_lg e _ h.tail) fun _ => post_ok h

theorem skip_lg (e : ℚ) : ∀ l : List Sample, LG rd G r l → Post (LG rd G r) (skip e l)
  | [], _ => by simp only [skip]; exact post_error
  | p :: t, h => by
    simp only [skip]
    exact post_ite (fun _ => skip_lg e _ h.tail) fun _ => post_ok h

section
variable {x y : Signal} (hc : Calc rd B R G) (hx : SG rd G r x) (hy : SG rd G r y)
include hc hx hy

theorem computeAndM_sim : Sim (SG rd G r) (computeAndM rd x y) (Signal.computeAndM x y) := by
  have hb := u_fmax hx.2.1 hy.2.1
  have he := u_fmin hx.2.2 hy.2.2
  unfold computeAndM Signal.computeAndM
  refine sim_bind (sim_refl (skipGuarded_lg _ _ (lg_reverse hx.1))) fun is h1 => ?_
  refine sim_bind (sim_refl (skipGuarded_lg _ _ (lg_reverse hy.1))) fun js h2 => ?_
  exact sim_bind (partialAnd_sim hc hb _ _ _ _ h1 lg_nil h2 he) fun z h3 => simplify_sim hc ⟨h3, hb, he⟩

theorem computeOrM_sim : Sim (SG rd G r) (computeOrM rd x y) (Signal.computeOrM x y) := by
  have hb := u_fmax hx.2.1 hy.2.1
  have he := u_fmin hx.2.2 hy.2.2
  unfold computeOrM Signal.computeOrM
  refine sim_bind (sim_refl (skipGuarded_lg _ _ (lg_reverse hx.1))) fun is h1 => ?_
  refine sim_bind (sim_refl (skipGuarded_lg _ _ (lg_reverse hy.1))) fun js h2 => ?_
  exact sim_bind (partialOr_sim hc hb _ _ _ _ h1 lg_nil h2 he) fun z h3 => simplify_sim hc ⟨h3, hb, he⟩

theorem computeAnd_sim : Sim (SG rd G r) (computeAnd rd x y) (Signal.computeAnd x y) := by
  have hb := u_fmax hx.2.1 hy.2.1
  have he := u_fmin hx.2.2 hy.2.2
  unfold computeAnd Signal.computeAnd
  refine sim_bind (sim_refl (skip_lg _ _ (lg_reverse hx.1))) fun is h1 => ?_
  refine sim_bind (sim_refl (skip_lg _ _ (lg_reverse hy.1))) fun js h2 => ?_
  exact sim_bind (partialAnd_sim hc hb _ _ _ _ h1 lg_nil h2 he) fun z h3 => simplify_sim hc ⟨h3, hb, he⟩

theorem computeOr_sim : Sim (SG rd G r) (computeOr rd x y) (Signal.computeOr x y) := by
  have hb := u_fmax hx.2.1 hy.2.1
  have he := u_fmin hx.2.2 hy.2.2
  unfold computeOr Signal.computeOr
  refine sim_bind (sim_refl (skip_lg _ _ (lg_reverse hx.1))) fun is h1 => ?_
  refine sim_bind (sim_refl (skip_lg _ _ (lg_reverse hy.1))) fun js h2 => ?_
  exact sim_bind (partialOr_sim hc hb _ _ _ _ h1 lg_nil h2 he) fun z h3 => simplify_sim hc ⟨h3, hb, he⟩

end

/-! ## Temporal operators -/

theorem partialEventually_sim (hc : Calc rd B R G) {s : ℚ} (hs : U G r s) : ∀ (is z : List Sample) (t : ℚ)
    (c : Bool) (zm : ℚ), LG rd G r is → LG rd G r z → rd zm = zm → U G r t →
    Sim (fun a => LG rd G r a.1 ∧ LG rd G r a.2) (partialEventually rd s z is t c zm)
      (Signal.partialEventually s z is t c zm)
  | [], z, t, c, zm, _, _, _, _ => by simp only [partialEventually, Signal.partialEventually]; exact sim_error
  | i :: is, z, t, c, zm, hi, hz, hm, ht => by
    have hk : LG rd G r (if c then ⟨t, zm, 0⟩ :: z else z) := lg_ite (lg_cons (pg_val hm ht) hz) hz
    have ih := partialEventually_sim hc hs is
    have hd : (0 : ℚ) ≤ i.derivative := hi.head.2.1.ge
    simp only [partialEventually, Signal.partialEventually, hi.head.val, hi.head.fval hc, if_pos hd]
    refine sim_ite Iff.rfl (fun _ => ?_) fun _ => ?_
    · exact sim_ite Iff.rfl (fun _ => ih _ _ _ _ hi.tail hk hi.head.1 hi.head.2.2)
        fun _ => ih _ _ _ _ hi.tail hz hm hi.head.2.2
    · exact sim_ite Iff.rfl (fun _ => sim_ok ⟨lg_cons (pg_val hi.head.1 hs) hk, hi⟩)
        fun _ => sim_ok ⟨lg_cons (pg_val hm hs) hz, hi⟩

theorem computeEventually_sim (hc : Calc rd B R G) {x : Signal} (hx : SG rd G r x) :
    Sim (SG rd G r) (computeEventually rd B x) (Signal.computeEventually B x) := by
  unfold computeEventually Signal.computeEventually
  exact sim_bind (partialEventually_sim hc hx.2.1 _ _ _ _ _ (lg_reverse hx.1) lg_nil hc.negB hx.2.2)
    fun a h => sim_ok ⟨h.1, hx.2⟩

theorem computeGlobally_sim (hc : Calc rd B R G) {x : Signal} (hx : SG rd G r x) :
    Sim (SG rd G r) (computeGlobally rd B x) (Signal.computeGlobally B x) := by
  unfold computeGlobally Signal.computeGlobally
  exact sim_bind (computeEventually_sim hc (sg_not hc hx)) fun a h => sim_ok (sg_not hc h)

/-- A list of points with values that rounding keeps and times on the grid. -/
def QG (rd : ℚ → ℚ) (G : ℚ → Prop) (r : ℚ) (l : List Point) : Prop := ∀ p ∈ l, rd p.value = p.value ∧ U G r p.time

theorem qg_nil : QG rd G r [] := by simp [QG]

theorem qg_cons {p : Point} {l : List Point} (h : rd p.value = p.value ∧ U G r p.time) (hl : QG rd G r l) :
    QG rd G r (p :: l) := by
  intro q hq
  rcases List.mem_cons.1 hq with rfl | hq
  · exact h
  · exact hl q hq

theorem QG.head {p : Point} {l : List Point} (h : QG rd G r (p :: l)) : rd p.value = p.value ∧ U G r p.time :=
  h p (by simp)

theorem QG.tail {p : Point} {l : List Point} (h : QG rd G r (p :: l)) : QG rd G r l :=
  fun q hq => h q (by simp [hq])

theorem qg_append {l m : List Point} (h : QG rd G r l) (hm : QG rd G r m) : QG rd G r (l ++ m) := by
  intro q hq
  rcases List.mem_append.1 hq with hq | hq
  · exact h q hq
  · exact hm q hq

theorem popFront_qg {e : Bool} {m : List Point} (h : QG rd G r m) : Post (QG rd G r) (popFront e m) := by
  unfold popFront
  refine post_ite (fun _ => ?_) fun _ => post_ok h
  split
  · exact post_error
  · exact post_ok h.tail

theorem frontVal_qg {v : ℚ} (hv : rd v = v) : ∀ {m : List Point}, QG rd G r m → rd (frontVal v m) = frontVal v m
  | [], _ => hv
  | _ :: _, h => h.head.1

theorem fix_fmax {a b : ℚ} (ha : rd a = a) (hb : rd b = b) : rd (fmax a b) = fmax a b := by
  unfold fmax; split_ifs <;> assumption

theorem fix_fmin {a b : ℚ} (ha : rd a = a) (hb : rd b = b) : rd (fmin a b) = fmin a b := by
  unfold fmin; split_ifs <;> assumption

theorem peaksMax_sim (hc : Calc rd B R G) : ∀ (js : List Sample) (t v : ℚ) (y : List Point), LG rd G r js →
    U G r t → rd v = v → QG rd G r y →
    peaksMax rd js t v y = Signal.peaksMax js t v y ∧ QG rd G r (Signal.peaksMax js t v y)
  | [], _, _, _, _, _, _, hy => ⟨rfl, hy⟩
  | j :: js, t, v, y, hj, ht, hv, hy => by
    simp only [peaksMax, Signal.peaksMax, hj.head.val, hj.head.fval hc]
    exact peaksMax_sim hc js _ _ _ hj.tail hj.head.2.2 hj.head.1 (qg_cons ⟨fix_fmax hv hj.head.1, ht⟩ hy)

theorem peaksMin_sim (hc : Calc rd B R G) : ∀ (js : List Sample) (t v : ℚ) (y : List Point), LG rd G r js →
    U G r t → rd v = v → QG rd G r y →
    peaksMin rd js t v y = Signal.peaksMin js t v y ∧ QG rd G r (Signal.peaksMin js t v y)
  | [], _, _, _, _, _, _, hy => ⟨rfl, hy⟩
  | j :: js, t, v, y, hj, ht, hv, hy => by
    simp only [peaksMin, Signal.peaksMin, hj.head.val, hj.head.fval hc]
    exact peaksMin_sim hc js _ _ _ hj.tail hj.head.2.2 hj.head.1 (qg_cons ⟨fix_fmin hv hj.head.1, ht⟩ hy)

theorem popMax_qg (v : ℚ) {m : List Point} (h : QG rd G r m) : QG rd G r (popMax v m) := by
  intro q hq
  unfold popMax at hq
  exact h q (List.mem_reverse.1 ((List.dropWhile_sublist _).subset (List.mem_reverse.1 hq)))

theorem popMin_qg (v : ℚ) {m : List Point} (h : QG rd G r m) : QG rd G r (popMin v m) := by
  intro q hq
  unfold popMin at hq
  exact h q (List.mem_reverse.1 ((List.dropWhile_sublist _).subset (List.mem_reverse.1 hq)))

theorem initMax_qg (lim : ℚ) : ∀ (is m : List Point), QG rd G r is → QG rd G r m →
    Post (fun a => QG rd G r a.1 ∧ QG rd G r a.2) (initMax lim m is)
  | [], m, _, _ => by simp only [initMax]; exact post_error
  | i :: is, m, hi, hm => by
    simp only [initMax]
    exact post_ite (fun _ => initMax_qg lim is _ hi.tail
      (qg_append (popMax_qg _ hm) (qg_cons hi.head qg_nil))) fun _ => post_ok ⟨hm, hi⟩

theorem initMin_qg (lim : ℚ) : ∀ (is m : List Point), QG rd G r is → QG rd G r m →
    Post (fun a => QG rd G r a.1 ∧ QG rd G r a.2) (initMin lim m is)
  | [], m, _, _ => by simp only [initMin]; exact post_error
  | i :: is, m, hi, hm => by
    simp only [initMin]
    exact post_ite (fun _ => initMin_qg lim is _ hi.tail
      (qg_append (popMin_qg _ hm) (qg_cons hi.head qg_nil))) fun _ => post_ok ⟨hm, hi⟩

theorem enterMax_qg {c : Bool} {m is : List Point} (hm : QG rd G r m) (hi : QG rd G r is) :
    Post (fun a => QG rd G r a.1 ∧ QG rd G r a.2) (enterMax c m is) := by
  unfold enterMax
  refine post_ite (fun _ => ?_) fun _ => post_ok ⟨hm, hi⟩
  split
  · exact post_error
  · exact post_ok ⟨qg_append (popMax_qg _ hm) (qg_cons hi.head qg_nil), hi.tail⟩

theorem enterMin_qg {c : Bool} {m is : List Point} (hm : QG rd G r m) (hi : QG rd G r is) :
    Post (fun a => QG rd G r a.1 ∧ QG rd G r a.2) (enterMin c m is) := by
  unfold enterMin
  refine post_ite (fun _ => ?_) fun _ => post_ok ⟨hm, hi⟩
  split
  · exact post_error
  · exact post_ok ⟨qg_append (popMin_qg _ hm) (qg_cons hi.head qg_nil), hi.tail⟩

section
variable (hc : Calc rd B R G) {a : ℚ} (ha : U G q a) (hq : 0 ≤ q) (hr : r + q ≤ R)
include hc ha hq hr

theorem plateauMaxLoop_sim : ∀ (n : ℕ) (m is : List Point) (z : List Sample) (t : ℚ)
    (c e : Bool), QG rd G r m → QG rd G r is → LG rd G (r + q) z → U G (r + q) t →
    Sim (LG rd G (r + q)) (plateauMaxLoop rd B a n m is z t c e) (Signal.plateauMaxLoop B a n m is z t c e)
  | 0, _, _, _, _, _, _, _, _, _, _ => by simp only [plateauMaxLoop, Signal.plateauMaxLoop]; exact sim_error
  | n + 1, m, is, z, t, c, e, hm, hi, hz, ht => by
    simp only [plateauMaxLoop, Signal.plateauMaxLoop]
    refine sim_bind (sim_refl (popFront_qg hm)) fun m1 h1 => ?_
    refine sim_bind (sim_refl (enterMax_qg h1 hi)) ?_
    rintro ⟨m2, is2⟩ ⟨h2, h3⟩
    have hz' : LG rd G (r + q) (⟨t, frontVal (-B) m2, 0⟩ :: z) :=
      lg_cons (pg_val (frontVal_qg hc.negB h2) ht) hz
    dsimp only at h2 h3 ⊢
    have ih := plateauMaxLoop_sim n
    have hle : r ≤ r + q := by linarith
    rcases m2 with _ | ⟨p, m2⟩ <;> rcases is2 with _ | ⟨i, is2⟩
    · exact sim_ok hz'
    · have hs := h3.head.2.sub hc ha
      simp only [hs.fix hc hr]
      exact ih _ _ _ _ _ _ h2 h3 hz' hs
    · exact ih _ _ _ _ _ _ h2 h3 hz' (h2.head.2.mono hle)
    · have hs := h3.head.2.sub hc ha
      simp only [hs.fix hc hr]
      exact sim_ite Iff.rfl (fun _ => ih _ _ _ _ _ _ h2 h3 hz' (h2.head.2.mono hle)) fun _ =>
        sim_ite Iff.rfl (fun _ => ih _ _ _ _ _ _ h2 h3 hz' hs) fun _ =>
          ih _ _ _ _ _ _ h2 h3 hz' (h2.head.2.mono hle)

theorem plateauMinLoop_sim : ∀ (n : ℕ) (m is : List Point) (z : List Sample) (t : ℚ)
    (c e : Bool), QG rd G r m → QG rd G r is → LG rd G (r + q) z → U G (r + q) t →
    Sim (LG rd G (r + q)) (plateauMinLoop rd B a n m is z t c e) (Signal.plateauMinLoop B a n m is z t c e)
  | 0, _, _, _, _, _, _, _, _, _, _ => by simp only [plateauMinLoop, Signal.plateauMinLoop]; exact sim_error
  | n + 1, m, is, z, t, c, e, hm, hi, hz, ht => by
    simp only [plateauMinLoop, Signal.plateauMinLoop]
    refine sim_bind (sim_refl (popFront_qg hm)) fun m1 h1 => ?_
    refine sim_bind (sim_refl (enterMin_qg h1 hi)) ?_
    rintro ⟨m2, is2⟩ ⟨h2, h3⟩
    have hz' : LG rd G (r + q) (⟨t, frontVal B m2, 0⟩ :: z) :=
      lg_cons (pg_val (frontVal_qg hc.big h2) ht) hz
    dsimp only at h2 h3 ⊢
    have ih := plateauMinLoop_sim n
    have hle : r ≤ r + q := by linarith
    rcases m2 with _ | ⟨p, m2⟩ <;> rcases is2 with _ | ⟨i, is2⟩
    · exact sim_ok hz'
    · have hs := h3.head.2.sub hc ha
      simp only [hs.fix hc hr]
      exact ih _ _ _ _ _ _ h2 h3 hz' hs
    · exact ih _ _ _ _ _ _ h2 h3 hz' (h2.head.2.mono hle)
    · have hs := h3.head.2.sub hc ha
      simp only [hs.fix hc hr]
      exact sim_ite Iff.rfl (fun _ => ih _ _ _ _ _ _ h2 h3 hz' (h2.head.2.mono hle)) fun _ =>
        sim_ite Iff.rfl (fun _ => ih _ _ _ _ _ _ h2 h3 hz' hs) fun _ =>
          ih _ _ _ _ _ _ h2 h3 hz' (h2.head.2.mono hle)

theorem plateauMax_sim {x : Signal} (hx : SG rd G r x) :
    Sim (SG rd G (r + q)) (plateauMax rd B x a) (Signal.plateauMax B x a) := by
  have hle : r ≤ r + q := by linarith
  obtain ⟨l, b, e⟩ := x
  obtain ⟨hl, hb, he⟩ := hx
  simp only at hl hb he
  have hba : rd (b + a) = b + a := (hb.add hc ha).fix hc hr
  unfold plateauMax Signal.plateauMax
  cases l with
  | nil => exact sim_error
  | cons f t =>
    have hp := peaksMax_sim hc (f :: t).reverse e (-B) [] (lg_reverse hl) he hc.negB qg_nil
    simp only [hp.1, hba]
    refine sim_bind (sim_refl (initMax_qg _ _ _ (qg_cons ⟨hl.head.1, hl.head.2.2⟩ hp.2) qg_nil)) ?_
    rintro ⟨m, is⟩ ⟨h1, h2⟩
    dsimp only at h1 h2 ⊢
    cases is with
    | nil => exact sim_error
    | cons i is =>
      refine sim_bind (plateauMaxLoop_sim hc ha hq hr _ _ _ _ _ _ _ h1 h2 lg_nil (hb.mono hle)) fun z hz => ?_
      cases z with
      | nil => exact sim_error
      | cons p z => exact sim_ok ⟨lg_reverse (lg_ite hz.tail hz), hb.mono hle, he.mono hle⟩

theorem plateauMin_sim {x : Signal} (hx : SG rd G r x) :
    Sim (SG rd G (r + q)) (plateauMin rd B x a) (Signal.plateauMin B x a) := by
  have hle : r ≤ r + q := by linarith
  obtain ⟨l, b, e⟩ := x
  obtain ⟨hl, hb, he⟩ := hx
  simp only at hl hb he
  have hba : rd (b + a) = b + a := (hb.add hc ha).fix hc hr
  unfold plateauMin Signal.plateauMin
  cases l with
  | nil => exact sim_error
  | cons f t =>
    have hp := peaksMin_sim hc (f :: t).reverse e B [] (lg_reverse hl) he hc.big qg_nil
    simp only [hp.1, hba]
    refine sim_bind (sim_refl (initMin_qg _ _ _ (qg_cons ⟨hl.head.1, hl.head.2.2⟩ hp.2) qg_nil)) ?_
    rintro ⟨m, is⟩ ⟨h1, h2⟩
    dsimp only at h1 h2 ⊢
    cases is with
    | nil => exact sim_error
    | cons i is =>
      refine sim_bind (plateauMinLoop_sim hc ha hq hr _ _ _ _ _ _ _ h1 h2 lg_nil (hb.mono hle)) fun z hz => ?_
      cases z with
      | nil => exact sim_error
      | cons p z => exact sim_ok ⟨lg_reverse (lg_ite hz.tail hz), hb.mono hle, he.mono hle⟩

end

section
variable (hc : Calc rd B R G) (h0 : 0 ≤ r) {a b : ℚ} (hq : 0 ≤ q)
include hc h0 hq

theorem boundedEv_sim (ha : U G q a) (hr : r + 2 * q ≤ R) {x : Signal} (hx : SG rd G r x) :
    Sim (SG rd G (r + 2 * q)) (computeBoundedEventually rd B x a) (Signal.computeBoundedEventually B x a) := by
  have hr1 : r + q ≤ R := by linarith
  have e2 : r + q + q = r + 2 * q := by ring
  have hb := hx.2.1.add hc ha
  have he := hx.2.2.add hc ha
  unfold computeBoundedEventually Signal.computeBoundedEventually
  rw [hb.fix hc hr1, he.fix hc hr1]
  refine sim_bind (plateauMax_sim hc ha hq hr1 hx) fun z1 h1 => ?_
  refine sim_bind (resize_sim hc (by linarith) hr1 (hx.mono (by linarith)) hb he hc.negB) fun z2 h2 => ?_
  obtain ⟨s1, s2⟩ := shift_sim hc h2 (ha.neg hc) (by linarith)
  rw [e2] at s2
  rw [s1]
  refine sim_bind (computeOr_sim hc s2 (h1.mono (by linarith))) fun z3 h3 => ?_
  exact sim_bind (computeOr_sim hc (hx.mono (by linarith)) h3) fun z h => simplify_sim hc h

theorem boundedGlob_sim (ha : U G q a) (hr : r + 2 * q ≤ R) {x : Signal} (hx : SG rd G r x) :
    Sim (SG rd G (r + 2 * q)) (computeBoundedGlobally rd B x a) (Signal.computeBoundedGlobally B x a) := by
  have hr1 : r + q ≤ R := by linarith
  have e2 : r + q + q = r + 2 * q := by ring
  have hb := hx.2.1.add hc ha
  have he := hx.2.2.add hc ha
  unfold computeBoundedGlobally Signal.computeBoundedGlobally
  rw [hb.fix hc hr1, he.fix hc hr1]
  refine sim_bind (plateauMin_sim hc ha hq hr1 hx) fun z1 h1 => ?_
  refine sim_bind (resize_sim hc (by linarith) hr1 (hx.mono (by linarith)) hb he hc.big) fun z2 h2 => ?_
  obtain ⟨s1, s2⟩ := shift_sim hc h2 (ha.neg hc) (by linarith)
  rw [e2] at s2
  rw [s1]
  refine sim_bind (computeAnd_sim hc s2 (h1.mono (by linarith))) fun z3 h3 => ?_
  exact sim_bind (computeAnd_sim hc (hx.mono (by linarith)) h3) fun z h => simplify_sim hc h

variable (ha : U G q a) (hba : U G q (b - a)) (hr : 2 * (r + 3 * q) ≤ R)
include ha hba hr

omit hba in
theorem shiftIf_sim {x : Signal} (hx : SG rd G r x) : ∃ y, (if 0 < a then shift rd x (-a) else x) = y ∧
    (if 0 < a then x.shift (-a) else x) = y ∧ SG rd G (r + q) y := by
  obtain ⟨s1, s2⟩ := shift_sim hc hx (ha.neg hc) (by linarith)
  by_cases h : 0 < a
  · exact ⟨_, by rw [if_pos h, s1], by rw [if_pos h], s2⟩
  · exact ⟨_, by rw [if_neg h], by rw [if_neg h], hx.mono (by linarith)⟩

theorem timedEv_sim {x old : Signal} {o : ℚ} (hx : SG rd G r x) (hro : r + 3 * q ≤ o)
    (ho : x.samples = [] → SG rd G o old) :
    Sim (SG rd G o) (computeTimedEventually rd B old x a b)
      (Signal.computeTimedEventually B old x a b) := by
  obtain ⟨y, y1, y2, hy⟩ := shiftIf_sim hc h0 hq ha hr hx
  have e1 : rd (b - a) = b - a := hba.fix hc (by linarith)
  have e2 : rd (y.endTime - y.beginTime) = y.endTime - y.beginTime := (hy.2.2.sub hc hy.2.1).fix hc (by linarith)
  unfold computeTimedEventually Signal.computeTimedEventually
  simp only [y1, y2, e1, e2]
  refine sim_ite Iff.rfl (fun h => sim_ok ⟨lg_nil, (ho h).2⟩) fun _ => ?_
  refine sim_ite Iff.rfl (fun _ => sim_ok (hy.mono (by linarith))) fun _ => ?_
  refine sim_ite Iff.rfl (fun _ => sim_mono (fun z hz => hz.mono (by linarith)) (computeEventually_sim hc hy)) fun _ => ?_
  exact sim_mono (fun z hz => hz.mono (by linarith))
    (boundedEv_sim hc (by linarith) hq hba (by linarith) hy)

theorem timedGlob_sim {x old : Signal} {o : ℚ} (hx : SG rd G r x) (hro : r + 3 * q ≤ o)
    (ho : x.samples = [] → SG rd G o old) :
    Sim (SG rd G o) (computeTimedGlobally rd B old x a b)
      (Signal.computeTimedGlobally B old x a b) := by
  obtain ⟨y, y1, y2, hy⟩ := shiftIf_sim hc h0 hq ha hr hx
  have e1 : rd (b - a) = b - a := hba.fix hc (by linarith)
  have e2 : rd (y.endTime - y.beginTime) = y.endTime - y.beginTime := (hy.2.2.sub hc hy.2.1).fix hc (by linarith)
  unfold computeTimedGlobally Signal.computeTimedGlobally
  simp only [y1, y2, e1, e2]
  refine sim_ite Iff.rfl (fun h => sim_ok ⟨lg_nil, (ho h).2⟩) fun _ => ?_
  refine sim_ite Iff.rfl (fun _ => sim_ok (hy.mono (by linarith))) fun _ => ?_
  refine sim_ite Iff.rfl (fun _ => sim_mono (fun z hz => hz.mono (by linarith)) (computeGlobally_sim hc hy)) fun _ => ?_
  exact sim_mono (fun z hz => hz.mono (by linarith))
    (boundedGlob_sim hc (by linarith) hq hba (by linarith) hy)

end

/-! ## Until -/

theorem segmentUntil_sim (hc : Calc rd B R G) {i : Sample} {z js : List Sample} (hi : PG rd G r i)
    (hz : LG rd G r z) (hj : LG rd G r js) {t : ℚ} (ht : U G r t) {zm : ℚ} (hm : rd zm = zm) :
    Sim (fun a => LG rd G r a.1 ∧ LG rd G r a.2) (segmentUntil rd B z i t js zm)
      (Signal.segmentUntil B z i t js zm) := by
  simp only [segmentUntil, Signal.segmentUntil, hi.val, hi.fval hc, if_pos hi.2.1.le]
  refine sim_bind (segmentAnd_sim hc hi lg_nil hj ht) fun r1 h1 => ?_
  refine sim_bind (partialEventually_sim hc hi.2.2 _ _ _ _ _ (lg_reverse h1.1) lg_nil hc.negB ht) fun r2 h2 => ?_
  refine sim_bind (segmentOr_sim hc (pg_val (fix_fmin hm hi.1) hi.2.2) hz (lg_reverse h2.1) ht) fun r3 h3 => ?_
  exact sim_ok ⟨h3.1, h1.2⟩

theorem untilLoop_sim (hc : Calc rd B R G) {s : ℚ} (hs : U G r s) : ∀ (is z js : List Sample) (t zm : ℚ),
    LG rd G r is → LG rd G r z → LG rd G r js → U G r t → rd zm = zm →
    Sim (LG rd G r) (untilLoop rd B s z is js t zm) (Signal.untilLoop B s z is js t zm)
  | [], _, _, _, _, _, _, _, _, _ => by simp only [untilLoop, Signal.untilLoop]; exact sim_error
  | i :: is, z, js, t, zm, hi, hz, hj, ht, hm => by
    simp only [untilLoop, Signal.untilLoop, hi.head.val, hi.head.fval hc]
    refine sim_ite Iff.rfl (fun _ => ?_) fun _ => sim_ite Iff.rfl (fun _ => ?_) fun _ => ?_
    · refine sim_bind (segmentUntil_sim hc hi.head hz hj ht hm) ?_
      rintro ⟨z', js'⟩ ⟨h1, h2⟩
      dsimp only at h1 h2 ⊢
      rcases z' with _ | ⟨f, z'⟩ <;> rcases js' with _ | ⟨j, js'⟩
      · exact sim_error
      · exact sim_error
      · exact sim_error
      · exact untilLoop_sim hc hs is _ _ _ _ hi.tail h1 (lg_ite h2.tail h2) hi.head.2.2 h1.head.1
    · exact sim_bind (segmentUntil_sim hc hi.head hz hj ht hm) fun a h => sim_ok h.1
    · exact sim_bind (segmentUntil_sim hc (pg_at hi.head hs) hz hj ht hm) fun a h => sim_ok h.1

theorem computeUntil_sim (hc : Calc rd B R G) {x y : Signal} (hx : SG rd G r x) (hy : SG rd G r y) :
    Sim (SG rd G r) (computeUntil rd B x y) (Signal.computeUntil B x y) := by
  have hb := u_fmax hx.2.1 hy.2.1
  have he := u_fmin hx.2.2 hy.2.2
  unfold computeUntil Signal.computeUntil
  refine sim_bind (sim_refl (skip_lg _ _ (lg_reverse hx.1))) fun is h1 => ?_
  refine sim_bind (sim_refl (skip_lg _ _ (lg_reverse hy.1))) fun js h2 => ?_
  exact sim_bind (untilLoop_sim hc hb _ _ _ _ _ h1 lg_nil h2 he hc.negB) fun z h3 => simplify_sim hc ⟨h3, hb, he⟩

theorem timedUntil_sim (hc : Calc rd B R G) (h0 : 0 ≤ r) {a b : ℚ} (hq : 0 ≤ q) (ha : U G q a)
    (hba : U G q (b - a)) (hr : 2 * (r + 3 * q) ≤ R) {x y old : Signal} {o : ℚ} (hx : SG rd G r x)
    (hy : SG rd G r y) (hro : r + 3 * q ≤ o) (ho : x.samples = [] ∨ y.samples = [] → SG rd G o old) :
    Sim (SG rd G o) (computeTimedUntil rd B old x y a b) (Signal.computeTimedUntil B old x y a b) := by
  have m1 : ∀ {z}, SG rd G r z → SG rd G (r + 2 * q) z := fun h => h.mono (by linarith)
  have m2 : ∀ {z}, SG rd G (r + 2 * q) z → SG rd G (r + 3 * q) z := fun h => h.mono (by linarith)
  have e3 : r + 2 * q + q = r + 3 * q := by ring
  unfold computeTimedUntil Signal.computeTimedUntil
  refine sim_ite Iff.rfl (fun h => sim_ok ⟨lg_nil, (ho h).2⟩) fun _ =>
    sim_mono (Q := SG rd G (r + 3 * q)) (fun z h => h.mono hro) ?_
  refine sim_ite Iff.rfl (fun _ => ?_) fun _ => ?_
  · refine sim_ite Iff.rfl (fun _ => sim_mono (fun z h => m2 (m1 h)) (computeUntil_sim hc hx hy)) fun _ =>
      sim_ite Iff.rfl (fun _ => sim_mono (fun z h => m2 (m1 h)) (computeGlobally_sim hc hx)) fun _ => ?_
    refine sim_bind (boundedGlob_sim hc h0 hq ha (by linarith) hx) fun z1 h1 => ?_
    refine sim_bind (computeUntil_sim hc hx hy) fun z2 h2 => ?_
    obtain ⟨s1, s2⟩ := shift_sim hc (m1 h2) (ha.neg hc) (by linarith)
    rw [e3] at s2
    rw [s1]
    exact computeAnd_sim hc (m2 h1) s2
  · unfold computeTimedUntilF Signal.computeTimedUntilF
    rw [hba.fix hc (by linarith)]
    refine sim_bind (boundedEv_sim hc h0 hq hba (by linarith) hy) fun z2 h2 => ?_
    refine sim_bind (computeUntil_sim hc hx hy) fun z3 h3 => ?_
    refine sim_bind (computeAnd_sim hc h2 (m1 h3)) fun z4 h4 => ?_
    refine sim_ite Iff.rfl (fun _ => ?_) fun _ => computeAnd_sim hc (m2 (m1 hx)) (m2 h4)
    refine sim_bind (boundedGlob_sim hc h0 hq ha (by linarith) hx) fun z1 h1 => ?_
    obtain ⟨s1, s2⟩ := shift_sim hc h4 (ha.neg hc) (by linarith)
    rw [e3] at s2
    rw [s1]
    exact computeAnd_sim hc (m2 h1) s2

end
end Fp
end STLRom
