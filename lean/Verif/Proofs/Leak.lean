import Verif.Proofs.Heap

/-!
# A parse that changes no pointer of the driver releases all it allocated
-/

namespace STLRom
namespace Mem
open Parse

/-- Whatever is allocated is in `m`. -/
def Tight (h : Heap) (m : Multiset Addr) : Prop := ∀ a, a < h.next → a ∉ h.freed → a ∈ m

theorem Tight.of_eq {h : Heap} {m m' : Multiset Addr} (ht : Tight h m) (e : m = m') : Tight h m' := e ▸ ht

theorem Tight.new {h : Heap} {m : Multiset Addr} (ht : Tight h m) : Tight h.new.2 (h.new.1 ::ₘ m) := by
  intro a h1 h2
  rcases Nat.lt_succ_iff_lt_or_eq.1 h1 with h1 | rfl
  · exact Multiset.mem_cons_of_mem (ht a h1 h2)
  · exact Multiset.mem_cons_self _ _

theorem Tight.free {h h' : Heap} {m : Multiset Addr} {a : Addr} (ht : Tight h (a ::ₘ m)) (e : h.free a = some h') :
    Tight h' m := by
  unfold Heap.free at e
  split at e
  · cases e
    intro b h1 h2
    simp only [List.mem_cons, not_or] at h2
    exact (Multiset.mem_cons.1 (ht b h1 h2.2)).resolve_left h2.1
  · cases e

theorem Tight.del : ∀ (o : Obj) {h h' : Heap} {m : Multiset Addr}, Tight h (o.addrs + m) → Mem.del o h = some h' →
    Tight h' m
  | .leaf a, h, h', m, ht, e => by
    rw [Obj.addrs, Multiset.singleton_add] at ht
    exact ht.free e
  | .un a c, h, h', m, ht, e => by
    rw [Mem.del] at e
    simp only [Option.bind_eq_bind, Option.bind_eq_some_iff] at e
    obtain ⟨-, -, h1, e1, e2⟩ := e
    have : Tight h (c.addrs + (a ::ₘ m)) := ht.of_eq (by simp [Obj.addrs])
    exact (Tight.del c this e1).free e2
  | .tun a i c, h, h', m, ht, e => by
    rw [Mem.del] at e
    simp only [Option.bind_eq_bind, Option.bind_eq_some_iff] at e
    obtain ⟨-, -, h0, e0, h1, e1, e2⟩ := e
    have : Tight h (i ::ₘ (c.addrs + (a ::ₘ m))) := ht.of_eq (by
      simp only [Obj.addrs, Multiset.cons_add, Multiset.add_cons]; rw [Multiset.cons_swap])
    exact (Tight.del c (this.free e0) e1).free e2
  | .bin a l r, h, h', m, ht, e => by
    rw [Mem.del] at e
    simp only [Option.bind_eq_bind, Option.bind_eq_some_iff] at e
    obtain ⟨-, -, h1, e1, h2, e2, e3⟩ := e
    have : Tight h (l.addrs + (r.addrs + (a ::ₘ m))) := ht.of_eq (by simp [Obj.addrs, add_assoc])
    exact (Tight.del r (Tight.del l this e1) e2).free e3
  | .tbin a i l r, h, h', m, ht, e => by
    rw [Mem.del] at e
    simp only [Option.bind_eq_bind, Option.bind_eq_some_iff] at e
    obtain ⟨-, -, h0, e0, h1, e1, h2, e2, e3⟩ := e
    have : Tight h (i ::ₘ (l.addrs + (r.addrs + (a ::ₘ m)))) := ht.of_eq (by
      simp only [Obj.addrs, Multiset.cons_add, Multiset.add_cons, add_assoc]; rw [Multiset.cons_swap])
    exact (Tight.del r (Tight.del l (this.free e0) e1) e2).free e3

/-- A clone consists of new objects. -/
structure Cloned (h h' : Heap) (o' : Obj) : Prop where
  next : h.next ≤ h'.next
  above : ∀ a ∈ o'.addrs, h.next ≤ a
  tight : ∀ {m}, Tight h m → Tight h' (o'.addrs + m)

theorem clone_tight : ∀ (o : Obj) {o' : Obj} {h h' : Heap}, Mem.clone o h = some (o', h') → Cloned h h' o'
  | .leaf a, o', h, h', e => by
    rw [Mem.clone] at e
    simp only [Option.bind_eq_bind, Option.bind_eq_some_iff, Option.some.injEq, Prod.mk.injEq] at e
    obtain ⟨-, -, rfl, rfl⟩ := e
    exact ⟨Nat.le_succ _, by simp [Obj.addrs, Heap.new], fun ht => ht.new.of_eq (by simp [Obj.addrs])⟩
  | .un a c, o', h, h', e => by
    rw [Mem.clone] at e
    simp only [Option.bind_eq_bind, Option.bind_eq_some_iff, Option.some.injEq, Prod.mk.injEq, Prod.exists] at e
    obtain ⟨-, -, c', h1, e1, rfl, rfl⟩ := e
    have i := clone_tight c e1
    refine ⟨i.next.trans (Nat.le_succ _), ?_, fun ht => (i.tight ht).new.of_eq (by simp [Obj.addrs])⟩
    intro b hb
    rcases Multiset.mem_cons.1 hb with rfl | hb
    · exact i.next
    · exact i.above b hb
  | .tun a i c, o', h, h', e => by
    rw [Mem.clone] at e
    simp only [Option.bind_eq_bind, Option.bind_eq_some_iff, Option.some.injEq, Prod.mk.injEq, Prod.exists] at e
    obtain ⟨-, -, c', h1, e1, -, -, rfl, rfl⟩ := e
    have i := clone_tight c e1
    refine ⟨i.next.trans (Nat.le_add_right _ 2), ?_, fun ht => (i.tight ht).new.new.of_eq (by simp [Obj.addrs])⟩
    intro b hb
    simp only [Obj.addrs, Multiset.mem_cons] at hb
    rcases hb with rfl | rfl | hb
    · exact i.next.trans (Nat.le_succ _)
    · exact i.next
    · exact i.above b hb
  | .bin a l r, o', h, h', e => by
    rw [Mem.clone] at e
    simp only [Option.bind_eq_bind, Option.bind_eq_some_iff, Option.some.injEq, Prod.mk.injEq, Prod.exists] at e
    obtain ⟨-, -, l', h1, e1, r', h2, e2, rfl, rfl⟩ := e
    have i := clone_tight l e1
    have j := clone_tight r e2
    refine ⟨(i.next.trans j.next).trans (Nat.le_succ _), ?_, fun ht => (j.tight (i.tight ht)).new.of_eq (by
      simp only [Obj.addrs, Multiset.cons_add]; congr 1; abel)⟩
    intro b hb
    simp only [Obj.addrs, Multiset.mem_cons, Multiset.mem_add] at hb
    rcases hb with rfl | hb | hb
    · exact i.next.trans j.next
    · exact i.above b hb
    · exact i.next.trans (j.above b hb)
  | .tbin a i l r, o', h, h', e => by
    rw [Mem.clone] at e
    simp only [Option.bind_eq_bind, Option.bind_eq_some_iff, Option.some.injEq, Prod.mk.injEq, Prod.exists] at e
    obtain ⟨-, -, l', h1, e1, r', h2, e2, -, -, rfl, rfl⟩ := e
    have i := clone_tight l e1
    have j := clone_tight r e2
    refine ⟨(i.next.trans j.next).trans (Nat.le_add_right _ 2), ?_, fun ht => (j.tight (i.tight ht)).new.new.of_eq (by
      simp only [Obj.addrs, Multiset.cons_add]; congr 2; abel)⟩
    intro b hb
    simp only [Obj.addrs, Multiset.mem_cons, Multiset.mem_add] at hb
    rcases hb with rfl | rfl | hb | hb
    · exact (i.next.trans j.next).trans (Nat.le_succ _)
    · exact i.next.trans j.next
    · exact i.above b hb
    · exact i.next.trans (j.above b hb)

theorem del_next : ∀ (o : Obj) {h h' : Heap}, Mem.del o h = some h' → h'.next = h.next := by
  have hf : ∀ {h h' : Heap} {a : Addr}, h.free a = some h' → h'.next = h.next := by
    intro h h' a e
    unfold Heap.free at e
    split at e
    · cases e; rfl
    · cases e
  intro o
  induction o with
  | leaf a => exact fun e => hf e
  | un a c ih =>
    intro h h' e
    rw [Mem.del] at e
    simp only [Option.bind_eq_bind, Option.bind_eq_some_iff] at e
    obtain ⟨-, -, h1, e1, e2⟩ := e
    rw [hf e2, ih e1]
  | tun a i c ih =>
    intro h h' e
    rw [Mem.del] at e
    simp only [Option.bind_eq_bind, Option.bind_eq_some_iff] at e
    obtain ⟨-, -, h0, e0, h1, e1, e2⟩ := e
    rw [hf e2, ih e1, hf e0]
  | bin a l r i1 i2 =>
    intro h h' e
    rw [Mem.del] at e
    simp only [Option.bind_eq_bind, Option.bind_eq_some_iff] at e
    obtain ⟨-, -, h1, e1, h2, e2, e3⟩ := e
    rw [hf e3, i2 e2, i1 e1]
  | tbin a i l r i1 i2 =>
    intro h h' e
    rw [Mem.del] at e
    simp only [Option.bind_eq_bind, Option.bind_eq_some_iff] at e
    obtain ⟨-, -, h0, e0, h1, e1, h2, e2, e3⟩ := e
    rw [hf e3, i2 e2, i1 e1, hf e0]

/-! ## What the symbols own -/

/-- Symbols 43-50 and 53 own a formula, 52 an interval, the others nothing. -/
def Holds1 (a : ℕ) (v : HVal) : Prop :=
  if a ∈ [43, 44, 45, 46, 47, 48, 49, 50, 53] then ∃ o, v = .obj o
  else if a = 52 then ∃ i, v = .ival i
  else v = .none

theorem cleanup_tight : ∀ (st : List (ℕ × SVal)) (vs : List HVal) {h h' : Heap} {m : Multiset Addr},
    List.Forall₂ (fun e v => Holds1 (yyStos.getD e.1 0) v) st vs → Tight h (hbag vs + m) →
    cleanup st vs h = some h' → Tight h' m
  | [], _, h, h', m, .nil, ht, e => by
    cases e
    exact ht.of_eq (by simp [hbag])
  | (s, x) :: st, v :: vs, h, h', m, .cons hv hvs, ht, e => by
    simp only [cleanup, Option.bind_eq_bind, Option.bind_eq_some_iff] at e
    obtain ⟨h1, e1, e2⟩ := e
    refine cleanup_tight st vs hvs ?_ e2
    rw [hbag_cons, add_assoc] at ht
    unfold Holds1 at hv
    split_ifs at hv with a b
    · obtain ⟨o, rfl⟩ := hv
      simp only [destroyVal, if_pos a] at e1
      exact Tight.del o ht e1
    · obtain ⟨i, rfl⟩ := hv
      simp only [destroyVal, if_pos b] at e1
      exact Tight.free (ht.of_eq (by simp [HVal.addrs])) e1
    · subst hv
      cases e1
      exact ht.of_eq (by simp [HVal.addrs])

/-! ## The actions -/

/-- The driver holds a pointer it did not hold at the start, or has more trace tests. -/
def Moved (n0 : ℕ) (o0 o : Own) : Prop :=
  o0.queue.length < o.queue.length ∨ ∃ s x, o.formulas.lookup s = some x ∧ ∀ a ∈ x.addrs, n0 ≤ a

theorem addrs_ne (x : Obj) : ∃ a, a ∈ x.addrs := by
  cases x with
  | leaf a => exact ⟨a, by simp [Obj.addrs]⟩
  | un a _ => exact ⟨a, by simp [Obj.addrs]⟩
  | tun a _ _ => exact ⟨a, by simp [Obj.addrs]⟩
  | bin a _ _ => exact ⟨a, by simp [Obj.addrs]⟩
  | tbin a _ _ _ => exact ⟨a, by simp [Obj.addrs]⟩

theorem moved_ne {n0 : ℕ} {o0 o : Own} {h : Heap} {m : Multiset Addr} (hl : Live h (o0.bag + m)) (hn : h.next = n0)
    (hm : Moved n0 o0 o) : o ≠ o0 := by
  rintro rfl
  rcases hm with hm | ⟨s, x, hx, ha⟩
  · exact lt_irrefl _ hm
  · obtain ⟨a, h1⟩ := addrs_ne x
    have h2 : a ∈ o.bag + m := by
      refine Multiset.mem_add.2 (.inl ?_)
      unfold Own.bag
      exact Multiset.mem_add.2 (.inl (Multiset.mem_of_le (lookup_le hx) h1))
    exact absurd (hl.2 a h2).1 (not_lt.2 (hn ▸ ha a h1))

theorem pushObj_length (q : List (List Obj)) (o : Obj) : (pushObj q o).length = q.length := by
  unfold pushObj
  cases hq : q.getLast? with
  | none => rfl
  | some b =>
    have : q ≠ [] := by rintro rfl; simp at hq
    have := List.length_pos_iff.2 this
    simp
    omega

/-- What an action does: the result owns new objects only, as the arguments did; nothing is lost by a rule that
changes no pointer of the driver, and the other rules move the driver on. -/
structure ActTight (n0 : ℕ) (o0 : Own) (r : ℕ) (hargs : List HVal) (h : Heap) (o : Own) (h' : Heap) (o' : Own)
    (v' : HVal) : Prop where
  holds : Holds1 (yyR1.getD r 0) v'
  next : h.next ≤ h'.next
  above : n0 ≤ h.next → (∀ a ∈ hbag hargs, n0 ≤ a) → ∀ a ∈ v'.addrs, n0 ≤ a
  keep : r ∉ [33, 34, 35, 54, 55] → o' = o ∧ ∀ m, Tight h (hbag hargs + m) → Tight h' (v'.addrs + m)
  stay : (∀ a ∈ hbag hargs, n0 ≤ a) → Moved n0 o0 o → Moved n0 o0 o'
  start : r = 33 → (∀ a ∈ hbag hargs, n0 ≤ a) → Moved n0 o0 o'
  more : r = 34 ∨ r = 35 → o'.queue.length = o.queue.length + 1

theorem ActTight.of_keep {n0 r : ℕ} {o0 o : Own} {hargs : List HVal} {h h' : Heap} {v' : HVal}
    (hr : r ∉ [33, 34, 35, 54, 55]) (hv : Holds1 (yyR1.getD r 0) v') (hn : h.next ≤ h'.next)
    (ha : ∀ a ∈ v'.addrs, a ∈ hbag hargs ∨ h.next ≤ a)
    (hk : ∀ m, Tight h (hbag hargs + m) → Tight h' (v'.addrs + m)) :
    ActTight n0 o0 r hargs h o h' o v' where
  holds := hv
  next := hn
  above h1 h2 a h3 := (ha a h3).elim (h2 a) h1.trans
  keep _ := ⟨rfl, hk⟩
  stay _ h := h
  start e := absurd (by simp [e]) hr
  more e := absurd (by rcases e with e | e <;> simp [e]) hr

theorem ActTight.same {n0 r : ℕ} {o0 o : Own} {hargs : List HVal} {h : Heap} {v' : HVal}
    (hr : r ∉ [33, 34, 35, 54, 55]) (hv : Holds1 (yyR1.getD r 0) v') (e : v'.addrs = hbag hargs) :
    ActTight n0 o0 r hargs h o h o v' :=
  .of_keep hr hv le_rfl (fun a h => .inl (e ▸ h)) fun m ht => by rwa [e]

theorem ActTight.made {n0 r : ℕ} {o0 o : Own} {hargs : List HVal} {h : Heap} {v' : HVal}
    (hr : r ∉ [33, 34, 35, 54, 55]) (hv : Holds1 (yyR1.getD r 0) v') (e : v'.addrs = h.new.1 ::ₘ hbag hargs) :
    ActTight n0 o0 r hargs h o h.new.2 o v' := by
  refine .of_keep hr hv (Nat.le_succ _) (fun a h1 => ?_) fun m ht => ?_
  · rw [e] at h1
    rcases Multiset.mem_cons.1 h1 with rfl | h1
    · exact .inr le_rfl
    · exact .inl h1
  · rw [e, Multiset.cons_add]
    exact ht.new

/-- The last two kinds of rules. -/
theorem ActTight.test {n0 r : ℕ} {o0 o o' : Own} {hargs : List HVal} {h h' : Heap}
    (hr : r = 54 ∨ r = 55) (hn : h.next ≤ h'.next) (hf : o'.formulas = o.formulas)
    (hq : o'.queue.length = o.queue.length) : ActTight n0 o0 r hargs h o h' o' .none where
  holds := by rcases hr with rfl | rfl <;> rfl
  next := hn
  above _ _ a h := by simp [HVal.addrs] at h
  keep h := absurd (by rcases hr with rfl | rfl <;> simp) h
  stay _ h := by
    unfold Moved at h ⊢
    rwa [hf, hq]
  start e := by omega
  more e := by omega

theorem addFull_own {id : String} {f : Obj} {h h' : Heap} {o o' : Own} (e : addFull id f h o = some (h', o')) :
    h.next ≤ h'.next ∧ o'.formulas = o.formulas ∧ o'.queue.length = o.queue.length := by
  unfold addFull at e
  split at e
  · cases e; exact ⟨le_rfl, rfl, rfl⟩
  · simp only [Option.bind_eq_bind, Option.bind_eq_some_iff, Prod.exists, Option.some.injEq, Prod.mk.injEq] at e
    obtain ⟨o1, h1, e1, h2, e2, o3, h3, e3, o4, h4, e4, rfl, rfl⟩ := e
    have i1 := (clone_tight f e1).next
    have i2 := del_next o1 e2
    have i3 := (clone_tight f e3).next
    have i4 := (clone_tight f e4).next
    exact ⟨i1.trans (i2.ge.trans (i3.trans i4)), rfl, pushObj_length _ _⟩

theorem addAgain_own {id : String} {h h' : Heap} {o o' : Own} (e : addAgain id h o = some (h', o')) :
    h.next ≤ h'.next ∧ o'.formulas = o.formulas ∧ o'.queue.length = o.queue.length := by
  unfold addAgain at e
  split at e
  · cases e; exact ⟨le_rfl, rfl, rfl⟩
  · split at e
    · cases e; exact ⟨le_rfl, rfl, rfl⟩
    · rename_i x _
      simp only [Option.bind_eq_bind, Option.bind_eq_some_iff, Prod.exists, Option.some.injEq, Prod.mk.injEq] at e
      obtain ⟨o1, h1, e1, rfl, rfl⟩ := e
      exact ⟨(clone_tight x e1).next, rfl, pushObj_length _ _⟩

theorem hact_tight {n0 : ℕ} {o0 : Own} {r : ℕ} (h2 : 2 ≤ r) (h65 : r ≤ 65) {args : List SVal} {hargs : List HVal}
    {h h' : Heap} {o o' : Own} {v' : HVal} (ha : List.Forall₂ Holds1 (rhs.getD r []) hargs)
    (e : Mem.hact r args hargs h o = some (h', o', v')) : ActTight n0 o0 r hargs h o h' o' v' := by
  interval_cases r <;>
    simp [rhs, List.forall₂_cons_left_iff, Holds1] at ha <;>
    (try casesm* ∃ _, _, _ ∧ _) <;> subst_vars <;>
    simp [Mem.hact, hFirst, hSecond, hAbs, hNot, hBin, hTun, hTbin, done, newLeaf, newUn, newTun, newBin, newTbin,
      newIval] at e <;>
    (try casesm* _ ∧ _) <;> subst_vars <;>
    first
    | exact .same (by decide) rfl rfl
    | exact .same (by decide) ⟨_, rfl⟩ (by simp [hbag, HVal.addrs])
    | exact .made (by decide) ⟨_, rfl⟩ (by simp [hbag, HVal.addrs, Obj.addrs])
    | skip
  · -- rule 32
    unfold hRef at e
    split at e
    · simp only [Option.bind_eq_bind, Option.bind_eq_some_iff, Prod.exists, done, Option.some.injEq, Prod.mk.injEq] at e
      obtain ⟨x, -, x', h1, e1, rfl, rfl, rfl⟩ := e
      have i := clone_tight x e1
      exact .of_keep (by decide) ⟨_, rfl⟩ i.next (fun a ha => .inr (i.above a ha)) fun m ht =>
        i.tight (ht.of_eq (by simp [hbag, HVal.addrs]))
    · cases e
  · -- rule 33
    rename_i x
    unfold hDefine at e
    split at e
    · rename_i hy
      cases hy
      cases e
      rename_i s _ _
      have hx : (∀ a ∈ hbag [HVal.none, HVal.none, HVal.obj x], n0 ≤ a) → ∀ a ∈ x.addrs, n0 ≤ a :=
        fun h a ha => h a (by simpa [hbag, HVal.addrs] using ha)
      refine ⟨rfl, le_rfl, fun _ _ a h => by simp [HVal.addrs] at h, fun h => absurd (by simp) h, ?_, ?_, by simp⟩
      · rintro ha (hm | ⟨s', z, hz, hm⟩)
        · exact .inl hm
        · refine .inr ?_
          by_cases hs : s' = s
          · exact ⟨s, x, by simp [Assoc.lookup_set], hx ha⟩
          · exact ⟨s', z, by simp [Assoc.lookup_set, hs, hz], hm⟩
      · exact fun _ ha => .inr ⟨s, x, by simp [Assoc.lookup_set], hx ha⟩
    · cases e
  · -- rule 34
    refine ⟨rfl, le_rfl, fun _ _ a h => by simp [HVal.addrs] at h, fun h => absurd (by simp) h, ?_, by simp,
      fun _ => by simp [addTrace]⟩
    rintro - (hm | hm)
    · exact .inl (hm.trans (by simp [addTrace]))
    · exact .inr hm
  · -- rule 35
    refine ⟨rfl, le_rfl, fun _ _ a h => by simp [HVal.addrs] at h, fun h => absurd (by simp) h, ?_, by simp,
      fun _ => by simp [addTrace]⟩
    rintro - (hm | hm)
    · exact .inl (hm.trans (by simp [addTrace]))
    · exact .inr hm
  · -- rule 54
    unfold hFull at e
    split at e
    · simp only [Option.bind_eq_bind, Option.bind_eq_some_iff, Prod.exists, done, Option.some.injEq, Prod.mk.injEq] at e
      obtain ⟨h1, o1, e1, rfl, rfl, rfl⟩ := e
      obtain ⟨a1, a2, a3⟩ := addFull_own e1
      exact .test (.inl rfl) a1 a2 a3
    · cases e
  · -- rule 55
    unfold hAgain at e
    split at e
    · simp only [Option.bind_eq_bind, Option.bind_eq_some_iff, Prod.exists, done, Option.some.injEq, Prod.mk.injEq] at e
      obtain ⟨h1, o1, e1, rfl, rfl, rfl⟩ := e
      obtain ⟨a1, a2, a3⟩ := addAgain_own e1
      exact .test (.inr rfl) a1 a2 a3
    · cases e

/-! ## Tests are only read below a test header -/

/-- States that have symbol 55 on or below them. -/
def inTest : List ℕ := [78, 133, 50, 132, 21, 52, 131, 6, 130, 129, 128, 123, 116, 104, 77, 49]

theorem check_inTest : (inTest.all fun s => s != 0 && (yyStos.getD s 0 == 55 ||
    (below.getD s []).all fun t => inTest.contains t)) = true := by decide +kernel

theorem check_test : ((List.range 134).all fun s => !(yyDefact.getD s 0 == 54 || yyDefact.getD s 0 == 55) ||
    inTest.contains s) = true := by decide +kernel

theorem header_below {d0 d : Driver} {st : List (ℕ × SVal)} (hv : Valid d0 d st) :
    ∀ s v rest, st = (s, v) :: rest → s ∈ inTest → ∃ e ∈ st, yyStos.getD e.1 0 = 55 := by
  induction hv with
  | base =>
    intro s v rest e hs
    cases e
    exact absurd hs (by decide)
  | @push s v t w rest _ he _ _ _ ih =>
    intro s' v' rest' e hs
    cases e
    have hc := List.all_eq_true.1 check_inTest s hs
    simp only [Bool.and_eq_true, Bool.or_eq_true, beq_iff_eq] at hc
    rcases hc.2 with hc | hc
    · exact ⟨_, List.mem_cons_self, hc⟩
    · have ht := List.all_eq_true.1 hc t he
      obtain ⟨x, h1, h2⟩ := ih t w rest rfl (by simpa using ht)
      exact ⟨x, List.mem_cons_of_mem _ h1, h2⟩

/-! ## Rounds -/

theorem shift_sym {d0 : Driver} {p : PState} (h : Inv d0 p) {s : ℕ} {v : SVal} {rest : List (ℕ × SVal)}
    (hs : p.stack = (s, v) :: rest) (hm : move p = .shift) {t : ℕ} {x : SVal} {i : List Char}
    (he : step p = .next ⟨p.drv, (t, x) :: p.stack, none, i⟩) : yyStos.getD t 0 < 41 := by
  obtain ⟨s', v', rest', hs', hlt⟩ := h.valid.top
  rw [hs] at hs'
  obtain ⟨⟨rfl, rfl⟩, rfl⟩ : (s = s' ∧ v = v') ∧ rest = rest' := by simpa using hs'
  have hdef : moveDefault s ≠ .shift := by
    unfold moveDefault; split <;> simp
  have key : ∀ (q : PState) (la : ℕ × SVal), la.1 < 41 → yyPact.getD s 0 ≠ pactNinf →
      moveLook s (yyPact.getD s 0) la.1 = .shift →
      withLook q s (yyPact.getD s 0) la = .next ⟨p.drv, (t, x) :: p.stack, none, i⟩ → yyStos.getD t 0 < 41 := by
    intro q la hla hn hmv hw
    unfold moveLook at hmv
    unfold withLook at hw
    simp only at hmv hw
    split_ifs at hmv hw with hi h0
    · exact absurd hmv hdef
    · have hc := List.all_eq_true.1 (List.all_eq_true.1 check_shift s (List.mem_range.2 hlt)) la.1
        (List.mem_range.2 hla)
      rw [checkShift, shiftTo_of hn hi] at hc
      simp only [Bool.and_eq_true, decide_eq_true_eq, bne_iff_ne, beq_iff_eq] at hc
      have ht : yyTable.getD (yyPact.getD s 0 + (la.1 : ℤ)).toNat 0 = t := by
        injection hw with hw
        injection hw with _ hw
        rw [List.cons.injEq, Prod.mk.injEq] at hw
        exact hw.1.1
      rw [← ht, hc.1.2]
      exact hla
  unfold move at hm
  unfold step at he
  rw [hs] at hm he
  simp only at hm he
  split_ifs at hm he with h22 hn
  · exact absurd hm hdef
  · cases hl : p.look with
    | some la =>
      rw [hl] at hm he
      simp only at hm he
      rw [← hs] at he
      exact key _ la (h.look la.1 la.2 hl).1 hn hm he
    | none =>
      rw [hl] at hm he
      simp only at hm he
      rw [← hs] at he
      exact key _ (tokVal (Scan.lex p.drv p.input).1) (lexes_ok h.keeps (Props.C42_lex p.drv p.input)).1.lt hn hm he

/-- As long as the driver's pointers are those from before the parse, all that is allocated beyond `m` is held by
the stack. -/
structure LInv (n0 : ℕ) (o0 : Own) (m : Multiset Addr) (q : HState) : Prop where
  holds : List.Forall₂ (fun e v => Holds1 (yyStos.getD e.1 0) v) q.p.stack q.vals
  next : n0 ≤ q.heap.next
  above : ∀ a ∈ hbag q.vals, n0 ≤ a
  kept : (q.own = o0 ∧ Tight q.heap (hbag q.vals + m) ∧ ∀ e ∈ q.p.stack, yyStos.getD e.1 0 ≠ 55) ∨
    Moved n0 o0 q.own

theorem finish_tight {b b' : Bool} {d d' : Driver} {st : List (ℕ × SVal)} {vs : List HVal} {h h' : Heap}
    {o o' : Own} {m : Multiset Addr} (hh : List.Forall₂ (fun e v => Holds1 (yyStos.getD e.1 0) v) st vs)
    (e : finish b d st vs h o = .stop b' d' h' o') : o' = o ∧ (Tight h (hbag vs + m) → Tight h' m) := by
  unfold finish at e
  split at e
  · rename_i h1 e1
    cases e
    exact ⟨rfl, fun ht => cleanup_tight st vs hh ht e1⟩
  · cases e

theorem act_err {d0 d d' : Driver} {r : ℕ} (h2 : 2 ≤ r) (h65 : r ≤ 65) {args : List SVal}
    (ha : List.Forall₂ (Typed d0 d) (rhs.getD r []) args) (e : act d r args = .err d') : r = 6 ∨ r = 32 := by
  by_contra hr
  rw [not_or] at hr
  interval_cases r <;> first | (exact absurd rfl hr.1) | (exact absurd rfl hr.2) | skip
  all_goals
    simp [rhs, List.forall₂_cons_left_iff, Typed] at ha
    (try casesm* ∃ _, _, _ ∧ _, _ ∨ _) <;> subst_vars <;> cases e

theorem holds_args {d0 d : Driver} {st : List (ℕ × SVal)} (hv : Valid d0 d st) {s : ℕ} {v : SVal}
    {rest : List (ℕ × SVal)} (hs : st = (s, v) :: rest) (h22 : s ≠ 22) (hr : yyDefact.getD s 0 ≠ 0)
    {vs : List HVal} (hh : List.Forall₂ (fun e v => Holds1 (yyStos.getD e.1 0) v) st vs) :
    List.Forall₂ Holds1 (rhs.getD (yyDefact.getD s 0) []) (vs.take (yyR2.getD (yyDefact.getD s 0) 0)).reverse ∧
    ∃ t w rest', st.drop (yyR2.getD (yyDefact.getD s 0) 0) = (t, w) :: rest' ∧
      yyStos.getD (goto t (yyR1.getD (yyDefact.getD s 0) 0)) 0 = yyR1.getD (yyDefact.getD s 0) 0 := by
  obtain ⟨s', v', rest', he, hlt⟩ := hv.top
  rw [hs] at he
  obtain ⟨⟨rfl, rfl⟩, rfl⟩ : (s = s' ∧ v = v') ∧ rest = rest' := by simpa using he
  have hc := List.all_eq_true.1 check_reduce s (List.mem_range.2 hlt)
  generalize hR : yyDefact.getD s 0 = r at *
  simp only [checkReduce, hR, Bool.or_eq_true, beq_iff_eq, hr, h22, or_self, if_false,
    Bool.and_eq_true, decide_eq_true_eq] at hc
  obtain ⟨⟨⟨⟨h2, h65⟩, hlen⟩, hpop⟩, hgo⟩ := hc
  obtain ⟨t, w, rest', hd, hdown, -, -, hsym⟩ := pop_spec (rhs.getD r []).reverse [s] st hv
    ⟨s, v, rest, hs, by simp⟩ hpop
  rw [List.length_reverse] at hd hdown hsym
  have hg := List.all_eq_true.1 hgo t hdown
  simp only [Bool.and_eq_true, beq_iff_eq] at hg
  rw [← hlen]
  refine ⟨?_, t, w, rest', hd, hg.2⟩
  have h1 : List.Forall₂ Holds1 (rhs.getD r []).reverse (vs.take (rhs.getD r []).length) := by
    rw [← hsym, List.forall₂_map_left_iff]
    exact List.forall₂_take _ hh
  have := List.rel_reverse h1
  rwa [List.reverse_reverse] at this

theorem hstep_tight {d0 : Driver} {n0 : ℕ} {o0 : Own} {m m0 : Multiset Addr} {q : HState} (h : HInv d0 m0 q)
    (l : LInv n0 o0 m q) : (∀ q', hstep q = .next q' → LInv n0 o0 m q') ∧
    ∀ b d h' o, hstep q = .stop b d h' o → (o = o0 ∧ Tight h' m) ∨ Moved n0 o0 o := by
  obtain ⟨s, v, rest, hs, hlt⟩ := h.inv.valid.top
  have fin : ∀ {b b' : Bool} {d d' : Driver} {h' : Heap} {o : Own},
      finish b d q.p.stack q.vals q.heap q.own = .stop b' d' h' o → (o = o0 ∧ Tight h' m) ∨ Moved n0 o0 o := by
    intro b b' d d' h' o e
    obtain ⟨rfl, ht⟩ := finish_tight (m := m) l.holds e
    exact l.kept.imp (fun k => ⟨k.1, ht k.2.1⟩) id
  have fno : ∀ {b : Bool} {d : Driver} {st : List (ℕ × SVal)} {vs : List HVal} {h : Heap} {o : Own} {q' : HState},
      finish b d st vs h o ≠ .next q' := by
    intro b d st vs h o q' e
    unfold finish at e
    split at e <;> cases e
  rcases round hs h.plain with ⟨hm, he⟩ | ⟨hm, he⟩ | ⟨q0, h22, hr, hm, hd, hst, hp, he⟩ | he |
    ⟨t, x, i, hm, hk, he⟩
  · refine ⟨fun q' e => ?_, fun b d h' o e => ?_⟩ <;> unfold hstep at e <;> rw [he, hm] at e
    · exact absurd e fno
    · exact fin e
  · refine ⟨fun q' e => ?_, fun b d h' o e => ?_⟩ <;> unfold hstep at e <;> rw [he, hm] at e
    · exact absurd e fno
    · exact fin e
  · obtain ⟨h2, h65, htyped⟩ := reduce_args h.inv.valid hs h22 hr
    obtain ⟨hargs, t, w, rest', hdrop, hgo⟩ := holds_args h.inv.valid hs h22 hr l.holds
    have htest : yyDefact.getD s 0 = 54 ∨ yyDefact.getD s 0 = 55 → ∃ e ∈ q.p.stack, yyStos.getD e.1 0 = 55 := by
      intro h54
      have hc := List.all_eq_true.1 check_test s (List.mem_range.2 hlt)
      refine header_below h.inv.valid s v rest hs ?_
      simp only [Bool.or_eq_true, Bool.not_eq_true', Bool.or_eq_false_iff, beq_eq_false_iff_ne] at hc
      rcases hc with hc | hc
      · exact absurd h54 (not_or.2 hc)
      · simpa using hc
    generalize yyDefact.getD s 0 = r at *
    have hbagE := hbag_take (yyR2.getD r 0) q.vals
    have habove : ∀ a ∈ hbag (q.vals.take (yyR2.getD r 0)).reverse, n0 ≤ a := fun a ha =>
      l.above a (hbagE ▸ Multiset.mem_add.2 (.inl ha))
    unfold reduce at he
    simp only at he
    rw [hst, hd, hdrop] at he
    simp only at he
    split at he
    · refine ⟨fun q' e => ?_, fun b d h' o e => ?_⟩ <;> unfold hstep at e <;> rw [he] at e <;> cases e
    · -- an error
      rename_i d1 e1
      have h0 : hbag (q.vals.take (yyR2.getD r 0)).reverse = 0 := by
        generalize (q.vals.take (yyR2.getD r 0)).reverse = vs at hargs
        rcases act_err h2 h65 htyped e1 with rfl | rfl <;>
          simp [rhs, List.forall₂_cons_left_iff, Holds1] at hargs <;>
          subst hargs <;> rfl
      rw [h0, zero_add] at hbagE
      refine ⟨fun q' e => ?_, fun b d h' o e => ?_⟩ <;> unfold hstep at e <;> rw [he, hm] at e <;> simp only at e <;>
        split at e
      · exact absurd e fno
      · cases e
      · rename_i h1 e2
        obtain ⟨rfl, ht⟩ := finish_tight (m := m) (List.forall₂_drop _ l.holds) e
        refine l.kept.imp (fun k => ⟨k.1, ht ?_⟩) id
        rw [hbagE]
        split at e2
        · exact k.2.1.new.free e2
        · cases e2
          exact k.2.1
      · cases e
    · rename_i d1 u e1
      refine ⟨fun q' e => ?_, fun b d h' o e => ?_⟩ <;> unfold hstep at e <;> rw [he, hm] at e <;> simp only at e <;>
        split at e <;> cases e
      rename_i h' o' v' e2
      have A := hact_tight (n0 := n0) (o0 := o0) h2 h65 hargs e2
      refine ⟨?_, l.next.trans A.next, ?_, ?_⟩
      · refine .cons (by rw [hgo]; exact A.holds) ?_
        rw [← hdrop]
        exact List.forall₂_drop _ l.holds
      · intro a ha
        rw [hbag_cons] at ha
        rcases Multiset.mem_add.1 ha with ha | ha
        · exact A.above l.next habove a ha
        · exact l.above a (hbagE ▸ Multiset.mem_add.2 (.inr ha))
      · rcases l.kept with ⟨k1, k2, k3⟩ | k
        · by_cases hr5 : r ∈ [33, 34, 35, 54, 55]
          · refine .inr ?_
            simp only [List.mem_cons, List.not_mem_nil, or_false] at hr5
            rcases hr5 with hr5 | hr5 | hr5 | hr5 | hr5
            · exact A.start hr5 habove
            · exact .inl (by rw [A.more (.inl hr5), k1]; exact Nat.lt_succ_self _)
            · exact .inl (by rw [A.more (.inr hr5), k1]; exact Nat.lt_succ_self _)
            · obtain ⟨x, x1, x2⟩ := htest (.inl hr5)
              exact absurd x2 (k3 x x1)
            · obtain ⟨x, x1, x2⟩ := htest (.inr hr5)
              exact absurd x2 (k3 x x1)
          · obtain ⟨i1, i2⟩ := A.keep hr5
            refine .inl ⟨i1.trans k1, ?_, ?_⟩
            · refine (i2 (hbag (q.vals.drop (yyR2.getD r 0)) + m) (k2.of_eq ?_)).of_eq ?_
              · rw [← hbagE, add_assoc]
              · simp only [hbag_cons, add_assoc]
            · intro x hx
              rcases List.mem_cons.1 hx with rfl | hx
              · simp only
                rw [hgo]
                intro h55
                refine hr5 ?_
                clear * - h55 h2 h65
                interval_cases r <;> first | (exact absurd h55 (by decide)) | simp
              · rw [← hdrop] at hx
                exact k3 x (List.mem_of_mem_drop hx)
        · exact .inr (A.stay habove k)
  · refine ⟨fun q' e => ?_, fun b d h' o e => ?_⟩ <;> unfold hstep at e <;> rw [he] at e <;> cases e
  · have h41 := shift_sym h.inv hs hm he
    refine ⟨fun q' e => ?_, fun b d h' o e => ?_⟩ <;> unfold hstep at e <;> rw [he, hm] at e <;> cases e
    refine ⟨.cons ?_ l.holds, l.next, ?_, ?_⟩
    · simp only
      generalize yyStos.getD t 0 = a at h41
      interval_cases a <;> rfl
    · simpa [hbag_cons, HVal.addrs] using l.above
    · refine l.kept.imp (fun k => ⟨k.1, ?_, ?_⟩) id
      · simpa [hbag_cons, HVal.addrs] using k.2.1
      · intro x hx
        rcases List.mem_cons.1 hx with rfl | hx
        · simp only
          omega
        · exact k.2.2 x hx

theorem hrun_tight {d0 : Driver} {n0 : ℕ} {o0 : Own} {m m0 : Multiset Addr} : ∀ (n : ℕ) {q : HState}, HInv d0 m0 q →
    LInv n0 o0 m q → ∀ {b d h' o}, hrun n q = .stop b d h' o → (o = o0 ∧ Tight h' m) ∨ Moved n0 o0 o
  | 0, q, _, _, b, d, h', o, e => by cases e
  | n + 1, q, h, l, b, d, h', o, e => by
    obtain ⟨l1, l2⟩ := hstep_tight h l
    rcases hstep_ok h with ⟨q', e1, -, h1⟩ | ⟨b1, d1, h1, o1, e1, -, -, -⟩
    · rw [hrun, e1] at e
      exact hrun_tight n h1 (l1 q' e1) e
    · rw [hrun, e1] at e
      cases e
      exact l2 _ _ _ _ e1

theorem linv_start (d : Driver) (text : List Char) {h : Heap} (o : Own) {m : Multiset Addr} (ht : Tight h m) :
    LInv h.next o m (hstart d text h o) where
  holds := .cons (by have : yyStos.getD 0 0 = 0 := by decide +kernel
                     change Holds1 (yyStos.getD 0 0) .none; rw [this]; rfl) .nil
  next := le_rfl
  above := by simp [hstart, hbag, HVal.addrs]
  kept := .inl ⟨rfl, ht.of_eq (by simp [hstart, hbag, HVal.addrs]), by
    intro e he
    have : e = (0, .none) := by simpa [hstart, start] using he
    subst this
    decide +kernel⟩

end Mem
end STLRom
