import Mathlib.Algebra.BigOperators.Group.List.Basic
import Mathlib.Algebra.Order.Group.Multiset
import Mathlib.Data.Multiset.ZeroCons
import Mathlib.Tactic.Abel
import Mathlib.Tactic.IntervalCases
import Verif.Model.Heap
import Verif.Proofs.Parser

/-!
# Ownership of formulas

Every allocated formula node has at most one owner, and this is kept by everything except
`clear` on a driver with queued tests and copies of a driver with tests.
-/

namespace STLRom
namespace Mem
open Parse

/-- All addresses of a formula. -/
def Obj.addrs : Obj → Multiset Addr
  | .leaf a => {a}
  | .un a c => a ::ₘ c.addrs
  | .tun a i c => a ::ₘ i ::ₘ c.addrs
  | .bin a l r => a ::ₘ (l.addrs + r.addrs)
  | .tbin a i l r => a ::ₘ i ::ₘ (l.addrs + r.addrs)

/-- The addresses in `m` are allocated and all different. -/
structure Live (h : Heap) (m : Multiset Addr) : Prop where
  nodup : m.Nodup
  live : ∀ a ∈ m, a < h.next ∧ a ∉ h.freed
  freed : ∀ a ∈ h.freed, a < h.next

theorem Live.le {h : Heap} {m m' : Multiset Addr} (hl : Live h m) (hm : m' ≤ m) : Live h m' :=
  ⟨Multiset.nodup_of_le hm hl.1, fun a ha => hl.2 a (Multiset.mem_of_le hm ha), hl.3⟩

theorem Live.new {h : Heap} {m : Multiset Addr} (hl : Live h m) :
    Live h.new.2 (h.new.1 ::ₘ m) := by
  refine ⟨Multiset.nodup_cons.2 ⟨fun ha => ?_, hl.1⟩, fun a ha => ?_,
    fun a ha => Nat.lt_succ_of_lt (hl.3 a ha)⟩
  · exact absurd (hl.2 _ ha).1 (by simp [Heap.new])
  · rcases Multiset.mem_cons.1 ha with rfl | ha
    · exact ⟨Nat.lt_succ_self _, fun hf => absurd (hl.3 _ hf) (Nat.lt_irrefl _)⟩
    · exact ⟨Nat.lt_succ_of_lt (hl.2 a ha).1, (hl.2 a ha).2⟩

theorem Live.read {h : Heap} {m : Multiset Addr} (hl : Live h m) {a : Addr} (ha : a ∈ m) :
    h.read a = some () := if_pos (hl.2 a ha)

theorem Live.free {h : Heap} {m : Multiset Addr} {a : Addr} (hl : Live h (a ::ₘ m)) :
    ∃ h', h.free a = some h' ∧ Live h' m := by
  have h1 := hl.2 a (Multiset.mem_cons_self a m)
  refine ⟨_, if_pos h1, (Multiset.nodup_cons.1 hl.1).2, fun b hb => ?_, fun b hb => ?_⟩
  · have h2 := hl.2 b (Multiset.mem_cons_of_mem hb)
    refine ⟨h2.1, fun h3 => ?_⟩
    rcases List.mem_cons.1 h3 with rfl | h3
    · exact (Multiset.nodup_cons.1 hl.1).1 hb
    · exact h2.2 h3
  · rcases List.mem_cons.1 hb with rfl | hb
    · exact h1.1
    · exact hl.3 b hb

theorem Live.del : ∀ (o : Obj) {h : Heap} {m : Multiset Addr}, Live h (o.addrs + m) →
    ∃ h', del o h = some h' ∧ Live h' m
  | .leaf a, h, m, hl => by
    rw [Obj.addrs, Multiset.singleton_add] at hl
    exact hl.free
  | .un a c, h, m, hl => by
    rw [Obj.addrs, Multiset.cons_add] at hl
    have h1 := hl.read (Multiset.mem_cons_self _ _)
    rw [← Multiset.add_cons] at hl
    obtain ⟨h2, e2, l2⟩ := Live.del c hl
    obtain ⟨h3, e3, l3⟩ := l2.free
    exact ⟨h3, by simp [Mem.del, h1, e2, e3], l3⟩
  | .tun a i c, h, m, hl => by
    rw [Obj.addrs, Multiset.cons_add, Multiset.cons_add] at hl
    have h1 := hl.read (Multiset.mem_cons_self _ _)
    rw [Multiset.cons_swap] at hl
    obtain ⟨h4, e4, l4⟩ := hl.free
    rw [← Multiset.add_cons] at l4
    obtain ⟨h2, e2, l2⟩ := Live.del c l4
    obtain ⟨h3, e3, l3⟩ := l2.free
    exact ⟨h3, by simp [Mem.del, h1, e2, e3, e4], l3⟩
  | .bin a l r, h, m, hl => by
    rw [Obj.addrs, Multiset.cons_add] at hl
    have h1 := hl.read (Multiset.mem_cons_self _ _)
    rw [← Multiset.add_cons, add_assoc] at hl
    obtain ⟨h2, e2, l2⟩ := Live.del l hl
    obtain ⟨h4, e4, l4⟩ := Live.del r l2
    obtain ⟨h3, e3, l3⟩ := l4.free
    exact ⟨h3, by simp [Mem.del, h1, e2, e3, e4], l3⟩
  | .tbin a i l r, h, m, hl => by
    rw [Obj.addrs, Multiset.cons_add, Multiset.cons_add] at hl
    have h1 := hl.read (Multiset.mem_cons_self _ _)
    rw [Multiset.cons_swap] at hl
    obtain ⟨h5, e5, l5⟩ := hl.free
    rw [← Multiset.add_cons, add_assoc] at l5
    obtain ⟨h2, e2, l2⟩ := Live.del l l5
    obtain ⟨h4, e4, l4⟩ := Live.del r l2
    obtain ⟨h3, e3, l3⟩ := l4.free
    exact ⟨h3, by simp [Mem.del, h1, e2, e3, e4, e5], l3⟩

/-- The addresses of several formulas. -/
def bag (l : List Obj) : Multiset Addr := (l.map Obj.addrs).sum

theorem bag_nil : bag [] = 0 := rfl
theorem bag_cons (o : Obj) (l : List Obj) : bag (o :: l) = o.addrs + bag l := by simp [bag]
theorem bag_append (l l' : List Obj) : bag (l ++ l') = bag l + bag l' := by simp [bag]

theorem Live.delAll : ∀ (l : List Obj) {h : Heap} {m : Multiset Addr}, Live h (bag l + m) →
    ∃ h', delAll l h = some h' ∧ Live h' m
  | [], h, m, hl => ⟨h, rfl, by rwa [bag_nil, zero_add] at hl⟩
  | o :: l, h, m, hl => by
    rw [bag_cons, add_assoc] at hl
    obtain ⟨h1, e1, l1⟩ := Live.del o hl
    obtain ⟨h2, e2, l2⟩ := Live.delAll l l1
    exact ⟨h2, by simp [Mem.delAll, e1, e2], l2⟩

theorem mem_of_le_cons {a : Addr} {n m : Multiset Addr} (h : a ::ₘ n ≤ m) : a ∈ m :=
  Multiset.mem_of_le h (Multiset.mem_cons_self _ _)

theorem le_of_cons_le {a : Addr} {n m : Multiset Addr} (h : a ::ₘ n ≤ m) : n ≤ m :=
  (Multiset.le_cons_self _ _).trans h

theorem Live.clone : ∀ (o : Obj) {h : Heap} {m : Multiset Addr}, Live h m → o.addrs ≤ m →
    ∃ o' h', clone o h = some (o', h') ∧ Live h' (o'.addrs + m)
  | .leaf a, h, m, hl, hm => by
    have h1 := hl.read (Multiset.mem_of_le hm (Multiset.mem_singleton_self a))
    exact ⟨.leaf h.new.1, h.new.2, by simp [Mem.clone, h1],
      by rw [Obj.addrs, Multiset.singleton_add]; exact hl.new⟩
  | .un a c, h, m, hl, hm => by
    rw [Obj.addrs] at hm
    have h1 := hl.read (mem_of_le_cons hm)
    obtain ⟨c', h2, e2, l2⟩ := Live.clone c hl (le_of_cons_le hm)
    exact ⟨.un h2.new.1 c', h2.new.2, by simp [Mem.clone, h1, e2],
      by rw [Obj.addrs, Multiset.cons_add]; exact l2.new⟩
  | .tun a i c, h, m, hl, hm => by
    rw [Obj.addrs] at hm
    have h1 := hl.read (mem_of_le_cons hm)
    have hm' := le_of_cons_le hm
    obtain ⟨c', h2, e2, l2⟩ := Live.clone c hl (le_of_cons_le hm')
    have h3 := l2.read (Multiset.mem_add.2 (.inr (mem_of_le_cons hm')))
    exact ⟨.tun h2.new.2.new.1 h2.new.1 c', h2.new.2.new.2, by simp [Mem.clone, h1, e2, h3],
      by rw [Obj.addrs, Multiset.cons_add, Multiset.cons_add]; exact l2.new.new⟩
  | .bin a l r, h, m, hl, hm => by
    rw [Obj.addrs] at hm
    have h1 := hl.read (mem_of_le_cons hm)
    have hm' := le_of_cons_le hm
    obtain ⟨l', h2, e2, l2⟩ := Live.clone l hl ((Multiset.le_add_right _ _).trans hm')
    obtain ⟨r', h3, e3, l3⟩ := Live.clone r l2
      (((Multiset.le_add_left _ _).trans hm').trans (Multiset.le_add_left _ _))
    refine ⟨.bin h3.new.1 l' r', h3.new.2, by simp [Mem.clone, h1, e2, e3], ?_⟩
    rw [Obj.addrs, Multiset.cons_add, add_comm l'.addrs, add_assoc]
    exact l3.new
  | .tbin a i l r, h, m, hl, hm => by
    rw [Obj.addrs] at hm
    have h1 := hl.read (mem_of_le_cons hm)
    have hm1 := le_of_cons_le hm
    have hm' := le_of_cons_le hm1
    obtain ⟨l', h2, e2, l2⟩ := Live.clone l hl ((Multiset.le_add_right _ _).trans hm')
    obtain ⟨r', h3, e3, l3⟩ := Live.clone r l2
      (((Multiset.le_add_left _ _).trans hm').trans (Multiset.le_add_left _ _))
    have h4 := l3.read (Multiset.mem_add.2 (.inr (Multiset.mem_add.2 (.inr (mem_of_le_cons hm1)))))
    refine ⟨.tbin h3.new.2.new.1 h3.new.1 l' r', h3.new.2.new.2,
      by simp [Mem.clone, h1, e2, e3, h4], ?_⟩
    rw [Obj.addrs, Multiset.cons_add, Multiset.cons_add, add_comm l'.addrs, add_assoc]
    exact l3.new.new

theorem Live.visit : ∀ (o : Obj) {h : Heap} {m : Multiset Addr}, Live h m → o.addrs ≤ m →
    visit o h = some ()
  | .leaf a, h, m, hl, hm => hl.read (Multiset.mem_of_le hm (Multiset.mem_singleton_self a))
  | .un a c, h, m, hl, hm => by
    rw [Obj.addrs] at hm
    simp [Mem.visit, hl.read (mem_of_le_cons hm), Live.visit c hl (le_of_cons_le hm)]
  | .tun a i c, h, m, hl, hm => by
    rw [Obj.addrs] at hm
    have hm' := le_of_cons_le hm
    simp [Mem.visit, hl.read (mem_of_le_cons hm), hl.read (mem_of_le_cons hm'),
      Live.visit c hl (le_of_cons_le hm')]
  | .bin a l r, h, m, hl, hm => by
    rw [Obj.addrs] at hm
    have hm' := le_of_cons_le hm
    simp [Mem.visit, hl.read (mem_of_le_cons hm),
      Live.visit l hl ((Multiset.le_add_right _ _).trans hm'),
      Live.visit r hl ((Multiset.le_add_left _ _).trans hm')]
  | .tbin a i l r, h, m, hl, hm => by
    rw [Obj.addrs] at hm
    have hm1 := le_of_cons_le hm
    have hm' := le_of_cons_le hm1
    simp [Mem.visit, hl.read (mem_of_le_cons hm), hl.read (mem_of_le_cons hm1),
      Live.visit l hl ((Multiset.le_add_right _ _).trans hm'),
      Live.visit r hl ((Multiset.le_add_left _ _).trans hm')]

theorem Live.visitAll : ∀ (l : List Obj) {h : Heap} {m : Multiset Addr}, Live h m → bag l ≤ m →
    visitAll l h = some ()
  | [], _, _, _, _ => rfl
  | o :: l, h, m, hl, hm => by
    rw [bag_cons] at hm
    simp [Mem.visitAll, Live.visit o hl ((Multiset.le_add_right _ _).trans hm),
      Live.visitAll l hl ((Multiset.le_add_left _ _).trans hm)]

/-- The formulas of a map. -/
def vals (m : Assoc Obj) : List Obj := m.map (·.2)

theorem Live.cloneMap : ∀ (l : Assoc Obj) {h : Heap} {m : Multiset Addr}, Live h m →
    bag (vals l) ≤ m →
    ∃ l' h', cloneMap l h = some (l', h') ∧ Live h' (bag (vals l') + m) ∧
      l'.map (·.1) = l.map (·.1)
  | [], h, m, hl, _ => ⟨[], h, rfl, by rwa [vals, List.map_nil, bag_nil, zero_add], rfl⟩
  | (s, o) :: l, h, m, hl, hm => by
    rw [vals, List.map_cons, bag_cons] at hm
    obtain ⟨o', h1, e1, l1⟩ := Live.clone o hl ((Multiset.le_add_right _ _).trans hm)
    obtain ⟨l', h2, e2, l2, k2⟩ := Live.cloneMap l l1
      (((Multiset.le_add_left _ _).trans hm).trans (Multiset.le_add_left _ _))
    refine ⟨(s, o') :: l', h2, by simp [Mem.cloneMap, e1, e2], ?_, by simp [k2]⟩
    rw [vals, List.map_cons, bag_cons, add_comm o'.addrs, add_assoc]
    exact l2

/-! ## Drivers -/

/-- Everything a driver owns. -/
def Own.bag (w : Own) : Multiset Addr := Mem.bag (vals w.formulas) + (Mem.bag (vals w.tests) + Mem.bag w.queue.flatten)

theorem bag_set (l : Assoc Obj) (s : String) (o : Obj) :
    bag (vals (l.set s o)) ≤ o.addrs + bag (vals l) := by
  induction l with
  | nil => simp [Assoc.set, vals, bag]
  | cons p l ih =>
    obtain ⟨k, v⟩ := p
    rw [Assoc.set]
    split
    · rw [vals, List.map_cons, bag_cons, vals, List.map_cons, bag_cons]
      exact add_le_add_right (Multiset.le_add_left _ _) _
    · rw [vals, List.map_cons, bag_cons, vals, List.map_cons, bag_cons]
      exact (add_le_add_right ih _).trans (le_of_eq (by rw [vals]; abel))

theorem bag_push {q : List (List Obj)} (hq : q ≠ []) (o : Obj) :
    bag (pushObj q o).flatten = o.addrs + bag q.flatten := by
  obtain ⟨q, b, rfl⟩ := List.eq_nil_or_concat q |>.resolve_left hq
  simp only [pushObj, List.concat_eq_append, List.getLast?_append, List.getLast?_singleton,
    Option.some_or, List.dropLast_concat, List.flatten_append, List.flatten_singleton, bag_append,
    bag_cons, bag_nil]
  abel

theorem lookup_le {l : Assoc Obj} {s : String} {o : Obj} (h : l.lookup s = some o) :
    o.addrs ≤ bag (vals l) := by
  induction l with
  | nil => simp at h
  | cons p l ih =>
    obtain ⟨k, v⟩ := p
    rw [vals, List.map_cons, bag_cons]
    rw [List.lookup_cons] at h
    split at h
    · cases h
      exact Multiset.le_add_right _ _
    · exact (ih h).trans (Multiset.le_add_left _ _)

/-- The pointers `o` and the frame `m` are owned separately. -/
def Owns (h : Heap) (o : Own) (m : Multiset Addr) : Prop := Live h (o.bag + m)

theorem Live.of_eq {h : Heap} {m m' : Multiset Addr} (hl : Live h m) (e : m = m') : Live h m' := e ▸ hl

theorem owns_again (id : String) {h : Heap} {o : Own} {m : Multiset Addr} (hl : Owns h o m) :
    ∃ h' o', addAgain id h o = some (h', o') ∧ Owns h' o' m ∧ o'.formulas = o.formulas := by
  rw [addAgain]
  split
  · exact ⟨h, o, rfl, hl, rfl⟩
  · rename_i hq
    split
    · exact ⟨h, o, rfl, hl, rfl⟩
    · rename_i x hx
      obtain ⟨x', h', e, l⟩ := Live.clone x hl
        ((lookup_le hx).trans (by
          rw [Own.bag]
          exact (Multiset.le_add_right _ _).trans ((Multiset.le_add_left _ _).trans
            (Multiset.le_add_right _ _))))
      refine ⟨h', { o with queue := pushObj o.queue x' }, by rw [e]; rfl, ?_, rfl⟩
      refine l.of_eq ?_
      simp only [Own.bag, bag_push hq]
      abel

theorem owns_full (id : String) (f : Obj) {h : Heap} {o : Own} {m : Multiset Addr}
    (hl : Owns h o (f.addrs + m)) :
    ∃ h' o', addFull id f h o = some (h', o') ∧ Owns h' o' m ∧ o'.formulas = o.formulas := by
  rw [addFull]
  split
  · exact ⟨h, o, rfl, hl.le (by rw [← add_assoc, add_right_comm]; exact Multiset.le_add_right _ _), rfl⟩
  · rename_i hq
    have hf : f.addrs ≤ o.bag + (f.addrs + m) :=
      (Multiset.le_add_right _ _).trans (Multiset.le_add_left _ _)
    obtain ⟨o1, h1, e1, l1⟩ := Live.clone f hl hf
    obtain ⟨h2, e2, l2⟩ := Live.del o1 l1
    obtain ⟨o3, h3, e3, l3⟩ := Live.clone f l2 hf
    obtain ⟨o4, h4, e4, l4⟩ := Live.clone f l3 (hf.trans (Multiset.le_add_left _ _))
    refine ⟨h4, { o with tests := o.tests.set id o3, queue := pushObj o.queue o4 },
      by simp [e1, e2, e3, e4], ?_, rfl⟩
    refine l4.le ?_
    simp only [Own.bag, bag_push hq]
    calc bag (vals o.formulas) + (bag (vals (o.tests.set id o3)) + (o4.addrs + bag o.queue.flatten)) + m
        ≤ bag (vals o.formulas) + ((o3.addrs + bag (vals o.tests)) + (o4.addrs + bag o.queue.flatten)) + m := by
          have := bag_set o.tests id o3
          gcongr
      _ ≤ bag (vals o.formulas) + ((o3.addrs + bag (vals o.tests)) + (o4.addrs + bag o.queue.flatten)) + m + f.addrs :=
          Multiset.le_add_right _ _
      _ = _ := by abel

/-! ## Actions -/

/-- A value on the parser's stack and what it owns. -/
def Kind : SVal → HVal → Prop
  | .tr _, .obj _ => True
  | .ival _, .ival _ => True
  | .none, .none => True
  | .str _, .none => True
  | .bool _, .none => True
  | .pmap _, .none => True
  | _, _ => False

def HVal.addrs : HVal → Multiset Addr
  | .none => 0
  | .obj o => o.addrs
  | .ival a => {a}

def hbag (l : List HVal) : Multiset Addr := (l.map HVal.addrs).sum

theorem hbag_nil : hbag [] = 0 := rfl
theorem hbag_cons (v : HVal) (l : List HVal) : hbag (v :: l) = v.addrs + hbag l := by simp [hbag]
theorem hbag_append (l l' : List HVal) : hbag (l ++ l') = hbag l + hbag l' := by simp [hbag]
theorem hbag_reverse (l : List HVal) : hbag l.reverse = hbag l := by
  induction l with
  | nil => rfl
  | cons v l ih => rw [List.reverse_cons, hbag_append, ih, hbag_cons, hbag_cons, hbag_nil]; abel

/-- The driver and its pointers know the same formulas. -/
def Same (d : Driver) (o : Own) : Prop :=
  ∀ s, (d.formulas.lookup s).isSome = (o.formulas.lookup s).isSome

theorem Same.set {d : Driver} {o : Own} (h : Same d o) (s : String) (T : Tr) (x : Obj) :
    Same { d with formulas := d.formulas.set s T } { o with formulas := o.formulas.set s x } := by
  intro s'
  simp only [Assoc.lookup_set]
  split
  · rfl
  · exact h s'

theorem Same.of_eq {d d' : Driver} {o o' : Own} (h : Same d o) (e : d'.formulas = d.formulas)
    (e' : o'.formulas = o.formulas) : Same d' o' := by
  intro s
  rw [e, e']
  exact h s

theorem kind_obj {T : Tr} {v : HVal} (h : Kind (.tr T) v) : ∃ o, v = .obj o := by
  cases v <;> simp_all [Kind]

theorem kind_ival {I : Ival} {v : HVal} (h : Kind (.ival I) v) : ∃ a, v = .ival a := by
  cases v <;> simp_all [Kind]

theorem kind_str {s : String} {v : HVal} (h : Kind (.str s) v) : v = .none := by
  cases v <;> simp_all [Kind]

/-- An action with its memory. -/
structure ActOk (d' : Driver) (v : SVal) (m : Multiset Addr) (r : Option (Heap × Own × HVal)) : Prop where
  ex : ∃ h' o' v', r = some (h', o', v') ∧ Kind v v' ∧ Live h' (o'.bag + (v'.addrs + m)) ∧ Same d' o'

theorem actOk_none {d' : Driver} {v : SVal} {m m' : Multiset Addr} {h : Heap} {o : Own}
    (hk : Kind v .none) (hl : Live h (o.bag + (m' + m))) (hs : Same d' o) :
    ActOk d' v m (done o (h, .none)) :=
  ⟨h, o, .none, rfl, hk, hl.le (by
    rw [HVal.addrs, zero_add]
    exact add_le_add_right (Multiset.le_add_left _ _) _), hs⟩

theorem actOk_new {d' : Driver} {T : Tr} {m m' : Multiset Addr} {h : Heap} {o : Own} {x : Obj}
    (hl : Live h (o.bag + (m' + m))) (hs : Same d' o) (hx : x.addrs = h.new.1 ::ₘ m'' ) (hm : m'' ≤ m') :
    ActOk d' (.tr T) m (done o (h.new.2, .obj x)) :=
  ⟨h.new.2, o, .obj x, rfl, trivial, hl.new.le (by
    rw [HVal.addrs, hx, Multiset.cons_add, Multiset.add_cons]
    exact Multiset.cons_le_cons _ (by gcongr)), hs⟩

theorem actOk_copy {d' : Driver} {v : SVal} {v' : HVal} {m m' : Multiset Addr} {h : Heap} {o : Own}
    (hk : Kind v v') (hl : Live h (o.bag + (m' + m))) (hs : Same d' o) (hm : v'.addrs ≤ m') :
    ActOk d' v m (done o (h, v')) :=
  ⟨h, o, v', rfl, hk, hl.le (by gcongr), hs⟩

theorem le_hbag {v : HVal} {l : List HVal} (h : v ∈ l) : v.addrs ≤ hbag l := by
  induction l with
  | nil => cases h
  | cons x l ih =>
    rw [hbag_cons]
    rcases List.mem_cons.1 h with rfl | h
    · exact Multiset.le_add_right _ _
    · exact (ih h).trans (Multiset.le_add_left _ _)

theorem le_bin (a b : Obj) (v : HVal) : a.addrs + b.addrs ≤ hbag [.obj a, v, .obj b] := by
  rw [hbag_cons, HVal.addrs]
  exact add_le_add_right (le_hbag (v := .obj b) (by simp)) _

theorem le_tun (i : Addr) (c : Obj) (v : HVal) : i ::ₘ c.addrs ≤ hbag [v, .ival i, .obj c] := by
  rw [hbag_cons, hbag_cons, HVal.addrs.eq_3, ← Multiset.singleton_add]
  exact (add_le_add_right (le_hbag (v := .obj c) (by simp)) _).trans (Multiset.le_add_left _ _)

theorem le_tbin (i : Addr) (a b : Obj) (v : HVal) :
    i ::ₘ (a.addrs + b.addrs) ≤ hbag [.obj a, v, .ival i, .obj b] := by
  rw [hbag_cons, HVal.addrs.eq_2, ← Multiset.singleton_add, add_left_comm,
    Multiset.singleton_add]
  exact add_le_add_right (le_tun i b v) _

theorem actOk_ival {d' : Driver} {I : Ival} {m m' : Multiset Addr} {h : Heap} {o : Own}
    (hl : Live h (o.bag + (m' + m))) (hs : Same d' o) :
    ActOk d' (.ival I) m (done o (newIval h)) :=
  ⟨h.new.2, o, .ival h.new.1, rfl, trivial, hl.new.le (by
    rw [HVal.addrs, Multiset.singleton_add, Multiset.add_cons]
    exact Multiset.cons_le_cons _ (add_le_add_right (Multiset.le_add_left _ _) _)), hs⟩

theorem actOk_ref {d : Driver} {s : String} {T T' : Tr} {m m' : Multiset Addr} {h : Heap} {o : Own}
    (hl : Live h (o.bag + (m' + m))) (hs : Same d o) (e : d.formulas.lookup s = some T) :
    ActOk d (.tr T') m (hRef [.str s] h o) := by
  have h1 := hs s
  rw [e] at h1
  obtain ⟨x, hx⟩ := Option.isSome_iff_exists.1 h1.symm
  obtain ⟨x', h', e', l'⟩ := Live.clone x hl ((lookup_le hx).trans (by
    rw [Own.bag]
    exact (Multiset.le_add_right _ _).trans (Multiset.le_add_right _ _)))
  refine ⟨h', o, .obj x', by simp [hRef, hx, e', done], trivial, l'.le ?_, hs⟩
  rw [HVal.addrs]
  calc o.bag + (x'.addrs + m) = x'.addrs + (o.bag + m) := by abel
    _ ≤ _ := by
      gcongr
      exact Multiset.le_add_left _ _

theorem actOk_define {d : Driver} {s : String} {T : Tr} {x : Obj}
    {m m' : Multiset Addr} {h : Heap} {o : Own}
    (hl : Live h (o.bag + (m' + m))) (hs : Same d o) (hx : x.addrs ≤ m') :
    ActOk { d with formulas := d.formulas.set s T } .none m
      (done { o with formulas := o.formulas.set s x } (h, .none)) := by
  refine ⟨h, _, .none, rfl, trivial, hl.le ?_, hs.set s T x⟩
  rw [HVal.addrs, zero_add, Own.bag, Own.bag]
  have h1 := bag_set o.formulas s x
  calc bag (vals (o.formulas.set s x)) + (bag (vals o.tests) + bag o.queue.flatten) + m
      ≤ x.addrs + bag (vals o.formulas) + (bag (vals o.tests) + bag o.queue.flatten) + m := by
        gcongr
    _ = bag (vals o.formulas) + (bag (vals o.tests) + bag o.queue.flatten) + (x.addrs + m) := by
        abel
    _ ≤ _ := by gcongr

theorem owns_trace {m : Multiset Addr} {h : Heap} {o : Own}
    (hl : Live h (o.bag + m)) : Live h ((addTrace o).bag + m) := by
  refine hl.of_eq ?_
  simp [Own.bag, addTrace]

theorem same_test12 {d : Driver} {o o' : Own} (id : String) (mm : Assoc ℚ) (hs : Same d o)
    (e : o'.formulas = o.formulas) :
    Same (if mm = [] then d.addStlTest1 id else d.addStlTest2 id mm) o' := by
  refine hs.of_eq ?_ e
  split
  · simp only [Driver.addStlTest1]; split <;> rfl
  · simp only [Driver.addStlTest2]; split <;> rfl

theorem actOk_again {d : Driver} {id : String} {mm : Assoc ℚ}
    {m m' : Multiset Addr} {h : Heap} {o : Own}
    (hl : Live h (o.bag + (m' + m))) (hs : Same d o) :
    ActOk (if mm = [] then d.addStlTest1 id else d.addStlTest2 id mm) .none m
      (do
        let (h, w) ← addAgain id h o
        done w (h, .none)) := by
  obtain ⟨h', o', e, l', e'⟩ := owns_again id (m := m' + m) hl
  refine ⟨h', o', .none, by simp [e, done], trivial, l'.le ?_, same_test12 id mm hs e'⟩
  rw [HVal.addrs, zero_add]
  exact add_le_add_right (Multiset.le_add_left _ _) _

theorem actOk_full {d : Driver} {id p n : String} {mm : Assoc ℚ} {T : Tr} {b : Bool} {x : Obj}
    {m m' : Multiset Addr} {h : Heap} {o : Own}
    (hl : Live h (o.bag + (m' + m))) (hs : Same d o) (hx : x.addrs ≤ m') :
    ActOk (d.addStlTest6 id mm T p n b) .none m
      (do
        let (h, w) ← addFull id x h o
        done w (h, .none)) := by
  obtain ⟨h', o', e, l', e'⟩ := owns_full id x (m := m) (hl.le (by gcongr))
  refine ⟨h', o', .none, by simp [e, done], trivial, l'.of_eq ?_, hs.of_eq ?_ e'⟩
  · rw [HVal.addrs, zero_add]
  · simp only [Driver.addStlTest6]; split <;> rfl

theorem hact_ok {d0 d d' : Driver} {r : ℕ} (h2 : 2 ≤ r) (h65 : r ≤ 65) {args : List SVal}
    {hargs : List HVal} {v : SVal} {h : Heap} {o : Own} {m : Multiset Addr}
    (hact : act d r args = .ok d' v)
    (ha : List.Forall₂ (Typed d0 d) (rhs.getD r []) args)
    (hk : List.Forall₂ Kind args hargs) (hl : Live h (o.bag + (hbag hargs + m))) (hs : Same d o) :
    ActOk d' v m (Mem.hact r args hargs h o) := by
  interval_cases r
  · -- rule 2
    change List.Forall₂ (Typed d0 d) [30] args at ha
    rcases ha with _ | ⟨t1, ha⟩
    cases ha
    rcases hk with _ | ⟨k1, hk⟩
    cases hk
    obtain ⟨s1, rfl⟩ := t1
    obtain rfl := kind_str k1
    cases hact
    exact actOk_copy k1 hl hs (le_hbag (by simp))
  · -- rule 3
    change List.Forall₂ (Typed d0 d) [31] args at ha
    rcases ha with _ | ⟨t1, ha⟩
    cases ha
    rcases hk with _ | ⟨k1, hk⟩
    cases hk
    obtain ⟨s1, rfl⟩ := t1
    obtain rfl := kind_str k1
    cases hact
    exact actOk_copy k1 hl hs (le_hbag (by simp))
  · -- rule 4
    change List.Forall₂ (Typed d0 d) [30] args at ha
    rcases ha with _ | ⟨t1, ha⟩
    cases ha
    rcases hk with _ | ⟨k1, hk⟩
    cases hk
    obtain ⟨s1, rfl⟩ := t1
    obtain rfl := kind_str k1
    cases hact
    exact actOk_new (m'' := 0) hl hs rfl (Multiset.zero_le _)
  · -- rule 5
    change List.Forall₂ (Typed d0 d) [31] args at ha
    rcases ha with _ | ⟨t1, ha⟩
    cases ha
    rcases hk with _ | ⟨k1, hk⟩
    cases hk
    obtain ⟨s1, rfl⟩ := t1
    obtain rfl := kind_str k1
    cases hact
    exact actOk_new (m'' := 0) hl hs rfl (Multiset.zero_le _)
  · -- rule 6
    change List.Forall₂ (Typed d0 d) [34, 3, 16, 4] args at ha
    rcases ha with _ | ⟨t1, ha⟩
    rcases ha with _ | ⟨t2, ha⟩
    rcases ha with _ | ⟨t3, ha⟩
    rcases ha with _ | ⟨t4, ha⟩
    cases ha
    rcases hk with _ | ⟨k1, hk⟩
    rcases hk with _ | ⟨k2, hk⟩
    rcases hk with _ | ⟨k3, hk⟩
    rcases hk with _ | ⟨k4, hk⟩
    cases hk
    obtain ⟨s1, i1, rfl, e1⟩ := t1
    obtain rfl := kind_str k1
    rw [act_6, e1] at hact
    cases i1 with
    | zero => cases hact
    | succ i => cases hact; exact actOk_new (m'' := 0) hl hs rfl (Multiset.zero_le _)
  · -- rule 7
    change List.Forall₂ (Typed d0 d) [44] args at ha
    rcases ha with _ | ⟨t1, ha⟩
    cases ha
    rcases hk with _ | ⟨k1, hk⟩
    cases hk
    obtain ⟨T1, rfl⟩ := t1
    obtain ⟨x1, rfl⟩ := kind_obj k1
    cases hact
    exact actOk_copy k1 hl hs (le_hbag (by simp))
  · -- rule 8
    change List.Forall₂ (Typed d0 d) [43] args at ha
    rcases ha with _ | ⟨t1, ha⟩
    cases ha
    rcases hk with _ | ⟨k1, hk⟩
    cases hk
    obtain ⟨T1, rfl⟩ := t1
    obtain ⟨x1, rfl⟩ := kind_obj k1
    cases hact
    exact actOk_copy k1 hl hs (le_hbag (by simp))
  · -- rule 9
    change List.Forall₂ (Typed d0 d) [5, 49, 6] args at ha
    rcases ha with _ | ⟨t1, ha⟩
    rcases ha with _ | ⟨t2, ha⟩
    rcases ha with _ | ⟨t3, ha⟩
    cases ha
    rcases hk with _ | ⟨k1, hk⟩
    rcases hk with _ | ⟨k2, hk⟩
    rcases hk with _ | ⟨k3, hk⟩
    cases hk
    obtain ⟨T2, rfl⟩ := t2
    obtain ⟨x2, rfl⟩ := kind_obj k2
    cases hact
    exact actOk_copy k2 hl hs (le_hbag (by simp))
  · -- rule 10
    change List.Forall₂ (Typed d0 d) [45] args at ha
    rcases ha with _ | ⟨t1, ha⟩
    cases ha
    rcases hk with _ | ⟨k1, hk⟩
    cases hk
    obtain ⟨T1, rfl⟩ := t1
    obtain ⟨x1, rfl⟩ := kind_obj k1
    cases hact
    exact actOk_copy k1 hl hs (le_hbag (by simp))
  · -- rule 11
    change List.Forall₂ (Typed d0 d) [23, 5, 49, 6] args at ha
    rcases ha with _ | ⟨t1, ha⟩
    rcases ha with _ | ⟨t2, ha⟩
    rcases ha with _ | ⟨t3, ha⟩
    rcases ha with _ | ⟨t4, ha⟩
    cases ha
    rcases hk with _ | ⟨k1, hk⟩
    rcases hk with _ | ⟨k2, hk⟩
    rcases hk with _ | ⟨k3, hk⟩
    rcases hk with _ | ⟨k4, hk⟩
    cases hk
    obtain ⟨T3, rfl⟩ := t3
    obtain ⟨x3, rfl⟩ := kind_obj k3
    cases hact
    exact actOk_new (x := .un _ x3) (m'' := x3.addrs) hl hs rfl (le_hbag (v := .obj x3) (by simp))
  · -- rule 12
    change List.Forall₂ (Typed d0 d) [46] args at ha
    rcases ha with _ | ⟨t1, ha⟩
    cases ha
    rcases hk with _ | ⟨k1, hk⟩
    cases hk
    obtain ⟨T1, rfl⟩ := t1
    obtain ⟨x1, rfl⟩ := kind_obj k1
    cases hact
    exact actOk_copy k1 hl hs (le_hbag (by simp))
  · -- rule 13
    change List.Forall₂ (Typed d0 d) [48, 22, 45] args at ha
    rcases ha with _ | ⟨t1, ha⟩
    rcases ha with _ | ⟨t2, ha⟩
    rcases ha with _ | ⟨t3, ha⟩
    cases ha
    rcases hk with _ | ⟨k1, hk⟩
    rcases hk with _ | ⟨k2, hk⟩
    rcases hk with _ | ⟨k3, hk⟩
    cases hk
    obtain ⟨T1, rfl⟩ := t1
    obtain ⟨x1, rfl⟩ := kind_obj k1
    obtain ⟨T3, rfl⟩ := t3
    obtain ⟨x3, rfl⟩ := kind_obj k3
    cases hact
    exact actOk_new (m'' := x1.addrs + x3.addrs) hl hs rfl (le_bin x1 x3 _)
  · -- rule 14
    change List.Forall₂ (Typed d0 d) [47] args at ha
    rcases ha with _ | ⟨t1, ha⟩
    cases ha
    rcases hk with _ | ⟨k1, hk⟩
    cases hk
    obtain ⟨T1, rfl⟩ := t1
    obtain ⟨x1, rfl⟩ := kind_obj k1
    cases hact
    exact actOk_copy k1 hl hs (le_hbag (by simp))
  · -- rule 15
    change List.Forall₂ (Typed d0 d) [48, 20, 45] args at ha
    rcases ha with _ | ⟨t1, ha⟩
    rcases ha with _ | ⟨t2, ha⟩
    rcases ha with _ | ⟨t3, ha⟩
    cases ha
    rcases hk with _ | ⟨k1, hk⟩
    rcases hk with _ | ⟨k2, hk⟩
    rcases hk with _ | ⟨k3, hk⟩
    cases hk
    obtain ⟨T1, rfl⟩ := t1
    obtain ⟨x1, rfl⟩ := kind_obj k1
    obtain ⟨T3, rfl⟩ := t3
    obtain ⟨x3, rfl⟩ := kind_obj k3
    cases hact
    exact actOk_new (m'' := x1.addrs + x3.addrs) hl hs rfl (le_bin x1 x3 _)
  · -- rule 16
    change List.Forall₂ (Typed d0 d) [48, 21, 45] args at ha
    rcases ha with _ | ⟨t1, ha⟩
    rcases ha with _ | ⟨t2, ha⟩
    rcases ha with _ | ⟨t3, ha⟩
    cases ha
    rcases hk with _ | ⟨k1, hk⟩
    rcases hk with _ | ⟨k2, hk⟩
    rcases hk with _ | ⟨k3, hk⟩
    cases hk
    obtain ⟨T1, rfl⟩ := t1
    obtain ⟨x1, rfl⟩ := kind_obj k1
    obtain ⟨T3, rfl⟩ := t3
    obtain ⟨x3, rfl⟩ := kind_obj k3
    cases hact
    exact actOk_new (m'' := x1.addrs + x3.addrs) hl hs rfl (le_bin x1 x3 _)
  · -- rule 17
    change List.Forall₂ (Typed d0 d) [48] args at ha
    rcases ha with _ | ⟨t1, ha⟩
    cases ha
    rcases hk with _ | ⟨k1, hk⟩
    cases hk
    obtain ⟨T1, rfl⟩ := t1
    obtain ⟨x1, rfl⟩ := kind_obj k1
    cases hact
    exact actOk_copy k1 hl hs (le_hbag (by simp))
  · -- rule 18
    change List.Forall₂ (Typed d0 d) [49, 51, 49] args at ha
    rcases ha with _ | ⟨t1, ha⟩
    rcases ha with _ | ⟨t2, ha⟩
    rcases ha with _ | ⟨t3, ha⟩
    cases ha
    rcases hk with _ | ⟨k1, hk⟩
    rcases hk with _ | ⟨k2, hk⟩
    rcases hk with _ | ⟨k3, hk⟩
    cases hk
    obtain ⟨T1, rfl⟩ := t1
    obtain ⟨x1, rfl⟩ := kind_obj k1
    obtain ⟨s2, rfl⟩ := t2
    obtain rfl := kind_str k2
    obtain ⟨T3, rfl⟩ := t3
    obtain ⟨x3, rfl⟩ := kind_obj k3
    cases hact
    exact actOk_new (m'' := x1.addrs + x3.addrs) hl hs rfl (le_bin x1 x3 _)
  · -- rule 19
    change List.Forall₂ (Typed d0 d) [7] args at ha
    rcases ha with _ | ⟨t1, ha⟩
    cases ha
    rcases hk with _ | ⟨k1, hk⟩
    cases hk
    cases hact
    exact actOk_none trivial hl (hs.of_eq rfl rfl)
  · -- rule 20
    change List.Forall₂ (Typed d0 d) [9] args at ha
    rcases ha with _ | ⟨t1, ha⟩
    cases ha
    rcases hk with _ | ⟨k1, hk⟩
    cases hk
    cases hact
    exact actOk_none trivial hl (hs.of_eq rfl rfl)
  · -- rule 21
    change List.Forall₂ (Typed d0 d) [3, 42, 17, 42, 4] args at ha
    rcases ha with _ | ⟨t1, ha⟩
    rcases ha with _ | ⟨t2, ha⟩
    rcases ha with _ | ⟨t3, ha⟩
    rcases ha with _ | ⟨t4, ha⟩
    rcases ha with _ | ⟨t5, ha⟩
    cases ha
    rcases hk with _ | ⟨k1, hk⟩
    rcases hk with _ | ⟨k2, hk⟩
    rcases hk with _ | ⟨k3, hk⟩
    rcases hk with _ | ⟨k4, hk⟩
    rcases hk with _ | ⟨k5, hk⟩
    cases hk
    obtain ⟨s2, rfl⟩ := t2
    obtain rfl := kind_str k2
    obtain ⟨s4, rfl⟩ := t4
    obtain rfl := kind_str k4
    cases hact
    exact actOk_ival hl hs
  · -- rule 22
    change List.Forall₂ (Typed d0 d) [3, 42, 42, 4] args at ha
    rcases ha with _ | ⟨t1, ha⟩
    rcases ha with _ | ⟨t2, ha⟩
    rcases ha with _ | ⟨t3, ha⟩
    rcases ha with _ | ⟨t4, ha⟩
    cases ha
    rcases hk with _ | ⟨k1, hk⟩
    rcases hk with _ | ⟨k2, hk⟩
    rcases hk with _ | ⟨k3, hk⟩
    rcases hk with _ | ⟨k4, hk⟩
    cases hk
    obtain ⟨s2, rfl⟩ := t2
    obtain rfl := kind_str k2
    obtain ⟨s3, rfl⟩ := t3
    obtain rfl := kind_str k3
    cases hact
    exact actOk_ival hl hs
  · -- rule 23
    change List.Forall₂ (Typed d0 d) [50] args at ha
    rcases ha with _ | ⟨t1, ha⟩
    cases ha
    rcases hk with _ | ⟨k1, hk⟩
    cases hk
    obtain ⟨T1, rfl⟩ := t1
    obtain ⟨x1, rfl⟩ := kind_obj k1
    cases hact
    exact actOk_copy k1 hl hs (le_hbag (by simp))
  · -- rule 24
    change List.Forall₂ (Typed d0 d) [8, 53] args at ha
    rcases ha with _ | ⟨t1, ha⟩
    rcases ha with _ | ⟨t2, ha⟩
    cases ha
    rcases hk with _ | ⟨k1, hk⟩
    rcases hk with _ | ⟨k2, hk⟩
    cases hk
    obtain ⟨T2, rfl⟩ := t2
    obtain ⟨x2, rfl⟩ := kind_obj k2
    cases hact
    exact actOk_new (x := .un _ x2) (m'' := x2.addrs) hl hs rfl (le_hbag (v := .obj x2) (by simp))
  · -- rule 25
    change List.Forall₂ (Typed d0 d) [53, 10, 53] args at ha
    rcases ha with _ | ⟨t1, ha⟩
    rcases ha with _ | ⟨t2, ha⟩
    rcases ha with _ | ⟨t3, ha⟩
    cases ha
    rcases hk with _ | ⟨k1, hk⟩
    rcases hk with _ | ⟨k2, hk⟩
    rcases hk with _ | ⟨k3, hk⟩
    cases hk
    obtain ⟨T1, rfl⟩ := t1
    obtain ⟨x1, rfl⟩ := kind_obj k1
    obtain ⟨T3, rfl⟩ := t3
    obtain ⟨x3, rfl⟩ := kind_obj k3
    cases hact
    exact actOk_new (m'' := x1.addrs + x3.addrs) hl hs rfl (le_bin x1 x3 _)
  · -- rule 26
    change List.Forall₂ (Typed d0 d) [53, 11, 53] args at ha
    rcases ha with _ | ⟨t1, ha⟩
    rcases ha with _ | ⟨t2, ha⟩
    rcases ha with _ | ⟨t3, ha⟩
    cases ha
    rcases hk with _ | ⟨k1, hk⟩
    rcases hk with _ | ⟨k2, hk⟩
    rcases hk with _ | ⟨k3, hk⟩
    cases hk
    obtain ⟨T1, rfl⟩ := t1
    obtain ⟨x1, rfl⟩ := kind_obj k1
    obtain ⟨T3, rfl⟩ := t3
    obtain ⟨x3, rfl⟩ := kind_obj k3
    cases hact
    exact actOk_new (m'' := x1.addrs + x3.addrs) hl hs rfl (le_bin x1 x3 _)
  · -- rule 27
    change List.Forall₂ (Typed d0 d) [53, 12, 53] args at ha
    rcases ha with _ | ⟨t1, ha⟩
    rcases ha with _ | ⟨t2, ha⟩
    rcases ha with _ | ⟨t3, ha⟩
    cases ha
    rcases hk with _ | ⟨k1, hk⟩
    rcases hk with _ | ⟨k2, hk⟩
    rcases hk with _ | ⟨k3, hk⟩
    cases hk
    obtain ⟨T1, rfl⟩ := t1
    obtain ⟨x1, rfl⟩ := kind_obj k1
    obtain ⟨T3, rfl⟩ := t3
    obtain ⟨x3, rfl⟩ := kind_obj k3
    cases hact
    exact actOk_new (m'' := x1.addrs + x3.addrs) hl hs rfl (le_bin x1 x3 _)
  · -- rule 28
    change List.Forall₂ (Typed d0 d) [14, 52, 53] args at ha
    rcases ha with _ | ⟨t1, ha⟩
    rcases ha with _ | ⟨t2, ha⟩
    rcases ha with _ | ⟨t3, ha⟩
    cases ha
    rcases hk with _ | ⟨k1, hk⟩
    rcases hk with _ | ⟨k2, hk⟩
    rcases hk with _ | ⟨k3, hk⟩
    cases hk
    obtain ⟨I2, rfl⟩ := t2
    obtain ⟨i2, rfl⟩ := kind_ival k2
    obtain ⟨T3, rfl⟩ := t3
    obtain ⟨x3, rfl⟩ := kind_obj k3
    cases hact
    exact actOk_new (m'' := i2 ::ₘ x3.addrs) hl hs rfl (le_tun i2 x3 _)
  · -- rule 29
    change List.Forall₂ (Typed d0 d) [13, 52, 53] args at ha
    rcases ha with _ | ⟨t1, ha⟩
    rcases ha with _ | ⟨t2, ha⟩
    rcases ha with _ | ⟨t3, ha⟩
    cases ha
    rcases hk with _ | ⟨k1, hk⟩
    rcases hk with _ | ⟨k2, hk⟩
    rcases hk with _ | ⟨k3, hk⟩
    cases hk
    obtain ⟨I2, rfl⟩ := t2
    obtain ⟨i2, rfl⟩ := kind_ival k2
    obtain ⟨T3, rfl⟩ := t3
    obtain ⟨x3, rfl⟩ := kind_obj k3
    cases hact
    exact actOk_new (m'' := i2 ::ₘ x3.addrs) hl hs rfl (le_tun i2 x3 _)
  · -- rule 30
    change List.Forall₂ (Typed d0 d) [53, 15, 52, 53] args at ha
    rcases ha with _ | ⟨t1, ha⟩
    rcases ha with _ | ⟨t2, ha⟩
    rcases ha with _ | ⟨t3, ha⟩
    rcases ha with _ | ⟨t4, ha⟩
    cases ha
    rcases hk with _ | ⟨k1, hk⟩
    rcases hk with _ | ⟨k2, hk⟩
    rcases hk with _ | ⟨k3, hk⟩
    rcases hk with _ | ⟨k4, hk⟩
    cases hk
    obtain ⟨T1, rfl⟩ := t1
    obtain ⟨x1, rfl⟩ := kind_obj k1
    obtain ⟨I3, rfl⟩ := t3
    obtain ⟨i3, rfl⟩ := kind_ival k3
    obtain ⟨T4, rfl⟩ := t4
    obtain ⟨x4, rfl⟩ := kind_obj k4
    cases hact
    exact actOk_new (m'' := i3 ::ₘ (x1.addrs + x4.addrs)) hl hs rfl (le_tbin i3 x1 x4 _)
  · -- rule 31
    change List.Forall₂ (Typed d0 d) [5, 53, 6] args at ha
    rcases ha with _ | ⟨t1, ha⟩
    rcases ha with _ | ⟨t2, ha⟩
    rcases ha with _ | ⟨t3, ha⟩
    cases ha
    rcases hk with _ | ⟨k1, hk⟩
    rcases hk with _ | ⟨k2, hk⟩
    rcases hk with _ | ⟨k3, hk⟩
    cases hk
    obtain ⟨T2, rfl⟩ := t2
    obtain ⟨x2, rfl⟩ := kind_obj k2
    cases hact
    exact actOk_copy k2 hl hs (le_hbag (by simp))
  · -- rule 32
    change List.Forall₂ (Typed d0 d) [32] args at ha
    rcases ha with _ | ⟨t1, ha⟩
    cases ha
    rcases hk with _ | ⟨k1, hk⟩
    cases hk
    obtain ⟨s1, T1, rfl, e1⟩ := t1
    obtain rfl := kind_str k1
    rw [act_32, e1] at hact
    cases hact
    exact actOk_ref hl hs e1
  · -- rule 33
    change List.Forall₂ (Typed d0 d) [33, 19, 53] args at ha
    rcases ha with _ | ⟨t1, ha⟩
    rcases ha with _ | ⟨t2, ha⟩
    rcases ha with _ | ⟨t3, ha⟩
    cases ha
    rcases hk with _ | ⟨k1, hk⟩
    rcases hk with _ | ⟨k2, hk⟩
    rcases hk with _ | ⟨k3, hk⟩
    cases hk
    obtain ⟨s1, rfl, -⟩ := t1
    obtain rfl := kind_str k1
    obtain ⟨T3, rfl⟩ := t3
    obtain ⟨x3, rfl⟩ := kind_obj k3
    cases hact
    exact actOk_define hl hs (le_hbag (v := .obj x3) (by simp))
  · -- rule 34
    change List.Forall₂ (Typed d0 d) [26, 33, 37, 36] args at ha
    rcases ha with _ | ⟨t1, ha⟩
    rcases ha with _ | ⟨t2, ha⟩
    rcases ha with _ | ⟨t3, ha⟩
    rcases ha with _ | ⟨t4, ha⟩
    cases ha
    rcases hk with _ | ⟨k1, hk⟩
    rcases hk with _ | ⟨k2, hk⟩
    rcases hk with _ | ⟨k3, hk⟩
    rcases hk with _ | ⟨k4, hk⟩
    cases hk
    obtain ⟨s2, rfl, -⟩ := t2
    obtain rfl := kind_str k2
    obtain ⟨s4, rfl⟩ := t4
    obtain rfl := kind_str k4
    cases hact
    exact actOk_none trivial (m' := hbag _) (owns_trace hl) (hs.of_eq rfl rfl)
  · -- rule 35
    change List.Forall₂ (Typed d0 d) [26, 33, 37, 36, 17, 30, 17, 56] args at ha
    rcases ha with _ | ⟨t1, ha⟩
    rcases ha with _ | ⟨t2, ha⟩
    rcases ha with _ | ⟨t3, ha⟩
    rcases ha with _ | ⟨t4, ha⟩
    rcases ha with _ | ⟨t5, ha⟩
    rcases ha with _ | ⟨t6, ha⟩
    rcases ha with _ | ⟨t7, ha⟩
    rcases ha with _ | ⟨t8, ha⟩
    cases ha
    rcases hk with _ | ⟨k1, hk⟩
    rcases hk with _ | ⟨k2, hk⟩
    rcases hk with _ | ⟨k3, hk⟩
    rcases hk with _ | ⟨k4, hk⟩
    rcases hk with _ | ⟨k5, hk⟩
    rcases hk with _ | ⟨k6, hk⟩
    rcases hk with _ | ⟨k7, hk⟩
    rcases hk with _ | ⟨k8, hk⟩
    cases hk
    obtain ⟨s2, rfl, -⟩ := t2
    obtain rfl := kind_str k2
    obtain ⟨s4, rfl⟩ := t4
    obtain rfl := kind_str k4
    obtain ⟨s6, rfl⟩ := t6
    obtain rfl := kind_str k6
    obtain ⟨b8, rfl⟩ := t8
    cases hact
    exact actOk_none trivial (m' := hbag _) (owns_trace hl) (hs.of_eq rfl rfl)
  · -- rule 36
    change List.Forall₂ (Typed d0 d) [27] args at ha
    rcases ha with _ | ⟨t1, ha⟩
    cases ha
    rcases hk with _ | ⟨k1, hk⟩
    cases hk
    cases hact
    exact actOk_none trivial hl (hs.of_eq rfl rfl)
  · -- rule 37
    change List.Forall₂ (Typed d0 d) [28] args at ha
    rcases ha with _ | ⟨t1, ha⟩
    cases ha
    rcases hk with _ | ⟨k1, hk⟩
    cases hk
    cases hact
    exact actOk_none trivial hl (hs.of_eq rfl rfl)
  · -- rule 38
    change List.Forall₂ (Typed d0 d) [31, 38, 30] args at ha
    rcases ha with _ | ⟨t1, ha⟩
    rcases ha with _ | ⟨t2, ha⟩
    rcases ha with _ | ⟨t3, ha⟩
    cases ha
    rcases hk with _ | ⟨k1, hk⟩
    rcases hk with _ | ⟨k2, hk⟩
    rcases hk with _ | ⟨k3, hk⟩
    cases hk
    obtain ⟨s1, rfl⟩ := t1
    obtain rfl := kind_str k1
    obtain ⟨s3, rfl⟩ := t3
    obtain rfl := kind_str k3
    cases hact
    exact actOk_none trivial hl (hs.of_eq rfl rfl)
  · -- rule 39
    change List.Forall₂ (Typed d0 d) [33, 38, 30] args at ha
    rcases ha with _ | ⟨t1, ha⟩
    rcases ha with _ | ⟨t2, ha⟩
    rcases ha with _ | ⟨t3, ha⟩
    cases ha
    rcases hk with _ | ⟨k1, hk⟩
    rcases hk with _ | ⟨k2, hk⟩
    rcases hk with _ | ⟨k3, hk⟩
    cases hk
    obtain ⟨s1, rfl, -⟩ := t1
    obtain rfl := kind_str k1
    obtain ⟨s3, rfl⟩ := t3
    obtain rfl := kind_str k3
    cases hact
    exact actOk_none trivial hl (hs.of_eq rfl rfl)
  · -- rule 40
    change List.Forall₂ (Typed d0 d) [57] args at ha
    rcases ha with _ | ⟨t1, ha⟩
    cases ha
    rcases hk with _ | ⟨k1, hk⟩
    cases hk
    cases hact
    exact actOk_copy k1 hl hs (le_hbag (by simp))
  · -- rule 41
    change List.Forall₂ (Typed d0 d) [58, 17, 57] args at ha
    rcases ha with _ | ⟨t1, ha⟩
    rcases ha with _ | ⟨t2, ha⟩
    rcases ha with _ | ⟨t3, ha⟩
    cases ha
    rcases hk with _ | ⟨k1, hk⟩
    rcases hk with _ | ⟨k2, hk⟩
    rcases hk with _ | ⟨k3, hk⟩
    cases hk
    cases hact
    exact actOk_copy k1 hl hs (le_hbag (by simp))
  · -- rule 42
    change List.Forall₂ (Typed d0 d) [24, 58] args at ha
    rcases ha with _ | ⟨t1, ha⟩
    rcases ha with _ | ⟨t2, ha⟩
    cases ha
    rcases hk with _ | ⟨k1, hk⟩
    rcases hk with _ | ⟨k2, hk⟩
    cases hk
    cases hact
    exact actOk_copy k1 hl hs (le_hbag (by simp))
  · -- rule 43
    change List.Forall₂ (Typed d0 d) [31, 38, 30] args at ha
    rcases ha with _ | ⟨t1, ha⟩
    rcases ha with _ | ⟨t2, ha⟩
    rcases ha with _ | ⟨t3, ha⟩
    cases ha
    rcases hk with _ | ⟨k1, hk⟩
    rcases hk with _ | ⟨k2, hk⟩
    rcases hk with _ | ⟨k3, hk⟩
    cases hk
    obtain ⟨s1, rfl⟩ := t1
    obtain rfl := kind_str k1
    obtain ⟨s3, rfl⟩ := t3
    obtain rfl := kind_str k3
    cases hact
    exact actOk_none trivial hl (hs.of_eq rfl rfl)
  · -- rule 44
    change List.Forall₂ (Typed d0 d) [33, 38, 30] args at ha
    rcases ha with _ | ⟨t1, ha⟩
    rcases ha with _ | ⟨t2, ha⟩
    rcases ha with _ | ⟨t3, ha⟩
    cases ha
    rcases hk with _ | ⟨k1, hk⟩
    rcases hk with _ | ⟨k2, hk⟩
    rcases hk with _ | ⟨k3, hk⟩
    cases hk
    obtain ⟨s1, rfl, -⟩ := t1
    obtain rfl := kind_str k1
    obtain ⟨s3, rfl⟩ := t3
    obtain rfl := kind_str k3
    cases hact
    exact actOk_none trivial hl (hs.of_eq rfl rfl)
  · -- rule 45
    change List.Forall₂ (Typed d0 d) [60] args at ha
    rcases ha with _ | ⟨t1, ha⟩
    cases ha
    rcases hk with _ | ⟨k1, hk⟩
    cases hk
    obtain ⟨p1, y1, l1, rfl⟩ := t1
    cases hact
    exact actOk_copy k1 hl hs (le_hbag (by simp))
  · -- rule 46
    change List.Forall₂ (Typed d0 d) [61, 17, 60] args at ha
    rcases ha with _ | ⟨t1, ha⟩
    rcases ha with _ | ⟨t2, ha⟩
    rcases ha with _ | ⟨t3, ha⟩
    cases ha
    rcases hk with _ | ⟨k1, hk⟩
    rcases hk with _ | ⟨k2, hk⟩
    rcases hk with _ | ⟨k3, hk⟩
    cases hk
    obtain ⟨m1, rfl⟩ := t1
    obtain ⟨p3, y3, l3, rfl⟩ := t3
    cases hact
    exact actOk_none trivial hl (hs.of_eq rfl rfl)
  · -- rule 47
    change List.Forall₂ (Typed d0 d) [] args at ha
    cases ha
    cases hk
    cases hact
    exact actOk_none trivial hl (hs.of_eq rfl rfl)
  · -- rule 48
    change List.Forall₂ (Typed d0 d) [5, 61, 6] args at ha
    rcases ha with _ | ⟨t1, ha⟩
    rcases ha with _ | ⟨t2, ha⟩
    rcases ha with _ | ⟨t3, ha⟩
    cases ha
    rcases hk with _ | ⟨k1, hk⟩
    rcases hk with _ | ⟨k2, hk⟩
    rcases hk with _ | ⟨k3, hk⟩
    cases hk
    obtain ⟨m2, rfl⟩ := t2
    cases hact
    exact actOk_copy k2 hl hs (le_hbag (by simp))
  · -- rule 49
    change List.Forall₂ (Typed d0 d) [33] args at ha
    rcases ha with _ | ⟨t1, ha⟩
    cases ha
    rcases hk with _ | ⟨k1, hk⟩
    cases hk
    obtain ⟨s1, rfl, -⟩ := t1
    obtain rfl := kind_str k1
    cases hact
    exact actOk_none trivial hl (hs.of_eq rfl rfl)
  · -- rule 50
    change List.Forall₂ (Typed d0 d) [34] args at ha
    rcases ha with _ | ⟨t1, ha⟩
    cases ha
    rcases hk with _ | ⟨k1, hk⟩
    cases hk
    obtain ⟨s1, i1, rfl, e1⟩ := t1
    obtain rfl := kind_str k1
    cases hact
    exact actOk_none trivial hl (hs.of_eq rfl rfl)
  · -- rule 51
    change List.Forall₂ (Typed d0 d) [63] args at ha
    rcases ha with _ | ⟨t1, ha⟩
    cases ha
    rcases hk with _ | ⟨k1, hk⟩
    cases hk
    cases hact
    exact actOk_copy k1 hl hs (le_hbag (by simp))
  · -- rule 52
    change List.Forall₂ (Typed d0 d) [64, 17, 63] args at ha
    rcases ha with _ | ⟨t1, ha⟩
    rcases ha with _ | ⟨t2, ha⟩
    rcases ha with _ | ⟨t3, ha⟩
    cases ha
    rcases hk with _ | ⟨k1, hk⟩
    rcases hk with _ | ⟨k2, hk⟩
    rcases hk with _ | ⟨k3, hk⟩
    cases hk
    cases hact
    exact actOk_copy k1 hl hs (le_hbag (by simp))
  · -- rule 53
    change List.Forall₂ (Typed d0 d) [25, 64] args at ha
    rcases ha with _ | ⟨t1, ha⟩
    rcases ha with _ | ⟨t2, ha⟩
    cases ha
    rcases hk with _ | ⟨k1, hk⟩
    rcases hk with _ | ⟨k2, hk⟩
    cases hk
    cases hact
    exact actOk_copy k1 hl hs (le_hbag (by simp))
  · -- rule 54
    change List.Forall₂ (Typed d0 d) [33, 62, 39, 53, 17, 36, 17, 36, 17, 56, 40] args at ha
    rcases ha with _ | ⟨t1, ha⟩
    rcases ha with _ | ⟨t2, ha⟩
    rcases ha with _ | ⟨t3, ha⟩
    rcases ha with _ | ⟨t4, ha⟩
    rcases ha with _ | ⟨t5, ha⟩
    rcases ha with _ | ⟨t6, ha⟩
    rcases ha with _ | ⟨t7, ha⟩
    rcases ha with _ | ⟨t8, ha⟩
    rcases ha with _ | ⟨t9, ha⟩
    rcases ha with _ | ⟨t10, ha⟩
    rcases ha with _ | ⟨t11, ha⟩
    cases ha
    rcases hk with _ | ⟨k1, hk⟩
    rcases hk with _ | ⟨k2, hk⟩
    rcases hk with _ | ⟨k3, hk⟩
    rcases hk with _ | ⟨k4, hk⟩
    rcases hk with _ | ⟨k5, hk⟩
    rcases hk with _ | ⟨k6, hk⟩
    rcases hk with _ | ⟨k7, hk⟩
    rcases hk with _ | ⟨k8, hk⟩
    rcases hk with _ | ⟨k9, hk⟩
    rcases hk with _ | ⟨k10, hk⟩
    rcases hk with _ | ⟨k11, hk⟩
    cases hk
    obtain ⟨s1, rfl, -⟩ := t1
    obtain rfl := kind_str k1
    obtain ⟨m2, rfl⟩ := t2
    obtain ⟨T4, rfl⟩ := t4
    obtain ⟨x4, rfl⟩ := kind_obj k4
    obtain ⟨s6, rfl⟩ := t6
    obtain rfl := kind_str k6
    obtain ⟨s8, rfl⟩ := t8
    obtain rfl := kind_str k8
    obtain ⟨b10, rfl⟩ := t10
    cases hact
    exact actOk_full hl hs (le_hbag (v := .obj x4) (by simp))
  · -- rule 55
    change List.Forall₂ (Typed d0 d) [35, 62] args at ha
    rcases ha with _ | ⟨t1, ha⟩
    rcases ha with _ | ⟨t2, ha⟩
    cases ha
    rcases hk with _ | ⟨k1, hk⟩
    rcases hk with _ | ⟨k2, hk⟩
    cases hk
    obtain ⟨s1, rfl⟩ := t1
    obtain rfl := kind_str k1
    obtain ⟨m2, rfl⟩ := t2
    cases hact
    exact actOk_again hl hs
  · -- rule 56
    change List.Forall₂ (Typed d0 d) [67, 66] args at ha
    rcases ha with _ | ⟨t1, ha⟩
    rcases ha with _ | ⟨t2, ha⟩
    cases ha
    rcases hk with _ | ⟨k1, hk⟩
    rcases hk with _ | ⟨k2, hk⟩
    cases hk
    cases hact
    exact actOk_copy k1 hl hs (le_hbag (by simp))
  · -- rule 57
    change List.Forall₂ (Typed d0 d) [66] args at ha
    rcases ha with _ | ⟨t1, ha⟩
    cases ha
    rcases hk with _ | ⟨k1, hk⟩
    cases hk
    cases hact
    exact actOk_copy k1 hl hs (le_hbag (by simp))
  · -- rule 58
    change List.Forall₂ (Typed d0 d) [55, 39, 67, 40] args at ha
    rcases ha with _ | ⟨t1, ha⟩
    rcases ha with _ | ⟨t2, ha⟩
    rcases ha with _ | ⟨t3, ha⟩
    rcases ha with _ | ⟨t4, ha⟩
    cases ha
    rcases hk with _ | ⟨k1, hk⟩
    rcases hk with _ | ⟨k2, hk⟩
    rcases hk with _ | ⟨k3, hk⟩
    rcases hk with _ | ⟨k4, hk⟩
    cases hk
    cases hact
    exact actOk_copy k1 hl hs (le_hbag (by simp))
  · -- rule 59
    change List.Forall₂ (Typed d0 d) [54] args at ha
    rcases ha with _ | ⟨t1, ha⟩
    cases ha
    rcases hk with _ | ⟨k1, hk⟩
    cases hk
    cases hact
    exact actOk_copy k1 hl hs (le_hbag (by simp))
  · -- rule 60
    change List.Forall₂ (Typed d0 d) [68] args at ha
    rcases ha with _ | ⟨t1, ha⟩
    cases ha
    rcases hk with _ | ⟨k1, hk⟩
    cases hk
    cases hact
    exact actOk_copy k1 hl hs (le_hbag (by simp))
  · -- rule 61
    change List.Forall₂ (Typed d0 d) [59] args at ha
    rcases ha with _ | ⟨t1, ha⟩
    cases ha
    rcases hk with _ | ⟨k1, hk⟩
    cases hk
    cases hact
    exact actOk_copy k1 hl hs (le_hbag (by simp))
  · -- rule 62
    change List.Forall₂ (Typed d0 d) [65] args at ha
    rcases ha with _ | ⟨t1, ha⟩
    cases ha
    rcases hk with _ | ⟨k1, hk⟩
    cases hk
    cases hact
    exact actOk_copy k1 hl hs (le_hbag (by simp))
  · -- rule 63
    change List.Forall₂ (Typed d0 d) [69, 54] args at ha
    rcases ha with _ | ⟨t1, ha⟩
    rcases ha with _ | ⟨t2, ha⟩
    cases ha
    rcases hk with _ | ⟨k1, hk⟩
    rcases hk with _ | ⟨k2, hk⟩
    cases hk
    cases hact
    exact actOk_copy k1 hl hs (le_hbag (by simp))
  · -- rule 64
    change List.Forall₂ (Typed d0 d) [69, 68] args at ha
    rcases ha with _ | ⟨t1, ha⟩
    rcases ha with _ | ⟨t2, ha⟩
    cases ha
    rcases hk with _ | ⟨k1, hk⟩
    rcases hk with _ | ⟨k2, hk⟩
    cases hk
    cases hact
    exact actOk_copy k1 hl hs (le_hbag (by simp))
  · -- rule 65
    change List.Forall₂ (Typed d0 d) [69, 59] args at ha
    rcases ha with _ | ⟨t1, ha⟩
    rcases ha with _ | ⟨t2, ha⟩
    cases ha
    rcases hk with _ | ⟨k1, hk⟩
    rcases hk with _ | ⟨k2, hk⟩
    cases hk
    cases hact
    exact actOk_copy k1 hl hs (le_hbag (by simp))

/-! ## Rounds of the loop -/

/-- The lookahead owns nothing. -/
def Plain1 (p : PState) : Prop := ∀ la, p.look = some la → Kind la.2 .none

theorem kind_tok (t : Scan.Tok) : Kind (tokVal t).2 .none := by
  unfold tokVal
  cases t.str <;> trivial

/-- What one round does. -/
inductive Round (p : PState) (s : ℕ) : Prop where
  | accept : move p = .accept → step p = .accept p.drv → Round p s
  | fail : move p = .fail → step p = .abort p.drv → Round p s
  | reduce (q : PState) : s ≠ 22 → yyDefact.getD s 0 ≠ 0 → move p = .reduce (yyDefact.getD s 0) →
      q.drv = p.drv → q.stack = p.stack → Plain1 q → step p = reduce q (yyDefact.getD s 0) → Round p s
  | ub : step p = .ub → Round p s
  | shift (t : ℕ) (x : SVal) (i : List Char) : move p = .shift → Kind x .none →
      step p = .next ⟨p.drv, (t, x) :: p.stack, none, i⟩ → Round p s

theorem round_default {p q : PState} {s : ℕ} (h22 : s ≠ 22) (hm : move p = moveDefault s)
    (hs : step p = Parse.default q s) (hd : q.drv = p.drv) (hst : q.stack = p.stack) (hq : Plain1 q) :
    Round p s := by
  unfold moveDefault at hm
  unfold Parse.default at hs
  simp only at hs
  split_ifs at hm hs with h0
  · exact .fail hm (by rw [hs, hd])
  · exact .reduce q h22 h0 hm hd hst hq hs

theorem round_look {p q : PState} {s : ℕ} {la : ℕ × SVal} (h22 : s ≠ 22)
    (hm : move p = moveLook s (yyPact.getD s 0) la.1)
    (hs : step p = withLook q s (yyPact.getD s 0) la) (hd : q.drv = p.drv) (hst : q.stack = p.stack)
    (hq : Plain1 q) (hk : Kind la.2 .none) : Round p s := by
  unfold moveLook at hm
  unfold withLook at hs
  simp only at hs hm
  split_ifs at hm hs with h0 h1
  · exact round_default h22 hm hs hd hst hq
  · exact .ub hs
  · exact .shift _ _ _ hm hk (by rw [hs, ← hd, ← hst])

theorem round {p : PState} {s : ℕ} {v : SVal} {rest : List (ℕ × SVal)}
    (hs : p.stack = (s, v) :: rest) (hp : Plain1 p) : Round p s := by
  by_cases h22 : s = yyFinal
  · refine .accept ?_ ?_
    · unfold move; rw [hs]; simp only; rw [if_pos h22]
    · unfold step; rw [hs]; simp only; rw [if_pos h22]
  · by_cases hn : yyPact.getD s 0 = pactNinf
    · refine round_default (q := p) h22 ?_ ?_ rfl rfl hp
      · unfold move; rw [hs]; simp only; rw [if_neg h22, if_pos hn]
      · unfold step; rw [hs]; simp only; rw [if_neg h22, if_pos hn]
    · cases hl : p.look with
      | some la =>
        refine round_look (q := p) (la := la) h22 ?_ ?_ rfl rfl hp (hp la hl)
        · unfold move; rw [hs]; simp only; rw [if_neg h22, if_neg hn, hl]
        · unfold step; rw [hs]; simp only; rw [if_neg h22, if_neg hn, hl]
      | none =>
        refine round_look (q := { p with look := some (tokVal (Scan.lex p.drv p.input).1), input := (Scan.lex p.drv p.input).2 })
          (la := tokVal (Scan.lex p.drv p.input).1) h22 ?_ ?_ rfl rfl ?_ (kind_tok _)
        · unfold move; rw [hs]; simp only; rw [if_neg h22, if_neg hn, hl]; rfl
        · unfold step; rw [hs]; simp only; rw [if_neg h22, if_neg hn, hl, ← hs]
        · intro la hla
          have : tokVal (Scan.lex p.drv p.input).1 = la := by simpa using hla
          rw [← this]
          exact kind_tok _

theorem reduce_args {d0 d : Driver} {st : List (ℕ × SVal)} (hv : Valid d0 d st) {s : ℕ} {v : SVal}
    {rest : List (ℕ × SVal)} (hs : st = (s, v) :: rest) (h22 : s ≠ 22) (hr : yyDefact.getD s 0 ≠ 0) :
    2 ≤ yyDefact.getD s 0 ∧ yyDefact.getD s 0 ≤ 65 ∧
    List.Forall₂ (Typed d0 d) (rhs.getD (yyDefact.getD s 0) [])
      ((st.take (yyR2.getD (yyDefact.getD s 0) 0)).map (·.2)).reverse := by
  obtain ⟨s', v', rest', he, hlt⟩ := hv.top
  rw [hs] at he
  obtain ⟨⟨rfl, rfl⟩, rfl⟩ : (s = s' ∧ v = v') ∧ rest = rest' := by simpa using he
  have hc := List.all_eq_true.1 check_reduce s (List.mem_range.2 hlt)
  generalize hR : yyDefact.getD s 0 = r at *
  simp only [checkReduce, hR, Bool.or_eq_true, beq_iff_eq, hr, h22, or_self, if_false,
    Bool.and_eq_true, decide_eq_true_eq] at hc
  obtain ⟨⟨⟨⟨h2, h65⟩, hlen⟩, hpop⟩, -⟩ := hc
  obtain ⟨t, w, rest', -, -, -, hty, -⟩ := pop_spec (rhs.getD r []).reverse [s] st hv
    ⟨s, v, rest, hs, by simp⟩ hpop
  rw [List.length_reverse] at hty
  refine ⟨h2, h65, ?_⟩
  rw [← hlen]
  have := List.rel_reverse hty
  rwa [List.reverse_reverse] at this

/-- The state of the parser and of the memory agree. -/
structure HInv (d0 : Driver) (m : Multiset Addr) (q : HState) : Prop where
  inv : Inv d0 q.p
  plain : Plain1 q.p
  kinds : List.Forall₂ (fun e v => Kind e.2 v) q.p.stack q.vals
  live : Live q.heap (q.own.bag + (hbag q.vals + m))
  same : Same q.p.drv q.own

theorem cleanup_ok : ∀ (st : List (ℕ × SVal)) (vs : List HVal) {h : Heap} {m : Multiset Addr},
    Live h (hbag vs + m) → ∃ h', cleanup st vs h = some h' ∧ Live h' m
  | [], vs, h, m, hl => ⟨h, by simp [cleanup], hl.le (Multiset.le_add_left _ _)⟩
  | _ :: _, [], h, m, hl => ⟨h, by simp [cleanup], hl.le (Multiset.le_add_left _ _)⟩
  | (s, x) :: st, v :: vs, h, m, hl => by
    rw [hbag_cons, add_assoc] at hl
    have h1 : ∃ h', destroyVal s v h = some h' ∧ Live h' (hbag vs + m) := by
      cases v with
      | none => exact ⟨h, rfl, hl.le (Multiset.le_add_left _ _)⟩
      | obj o =>
        simp only [destroyVal]
        split
        · exact Live.del o hl
        · exact ⟨h, rfl, hl.le (Multiset.le_add_left _ _)⟩
      | ival a =>
        simp only [destroyVal]
        split
        · rw [HVal.addrs, Multiset.singleton_add] at hl
          exact hl.free
        · exact ⟨h, rfl, hl.le (Multiset.le_add_left _ _)⟩
    obtain ⟨h2, e2, l2⟩ := h1
    obtain ⟨h3, e3, l3⟩ := cleanup_ok st vs l2
    exact ⟨h3, by simp [cleanup, e2, e3], l3⟩

theorem finish_ok (b : Bool) (d : Driver) (st : List (ℕ × SVal)) (vs : List HVal) {h : Heap} {o : Own}
    {m : Multiset Addr} (hl : Live h (o.bag + (hbag vs + m))) :
    ∃ h', finish b d st vs h o = .stop b d h' o ∧ Live h' (o.bag + m) := by
  obtain ⟨h', e, l⟩ := cleanup_ok st vs (m := o.bag + m) (hl.of_eq (by abel))
  exact ⟨h', by rw [finish, e], l⟩

theorem hbag_take (n : ℕ) (vs : List HVal) : hbag (vs.take n).reverse + hbag (vs.drop n) = hbag vs := by
  rw [hbag_reverse, ← hbag_append, List.take_append_drop]

/-- One round: memory is used properly, and the parser's own state moves as without memory. -/
theorem hstep_ok {d0 : Driver} {m : Multiset Addr} {q : HState} (h : HInv d0 m q) :
    (∃ q', hstep q = .next q' ∧ step q.p = .next q'.p ∧ HInv d0 m q') ∨
    (∃ b d h' o, hstep q = .stop b d h' o ∧ step q.p = (if b then .accept d else .abort d) ∧
      Live h' (o.bag + m) ∧ Same d o) := by
  obtain ⟨s, v, rest, hs, -⟩ := h.inv.valid.top
  have hg := step_good h.inv
  rcases round hs h.plain with ⟨hm, he⟩ | ⟨hm, he⟩ | ⟨q0, h22, hr, hm, hd, hst, hp, he⟩ | he |
    ⟨t, x, i, hm, hk, he⟩
  · obtain ⟨h', e, l⟩ := finish_ok true q.p.drv q.p.stack q.vals h.live
    exact .inr ⟨true, _, h', _, by rw [← e]; unfold hstep; rw [he, hm], he, l, h.same⟩
  · obtain ⟨h', e, l⟩ := finish_ok false q.p.drv q.p.stack q.vals h.live
    exact .inr ⟨false, _, h', _, by rw [← e]; unfold hstep; rw [he, hm], he, l, h.same⟩
  · obtain ⟨h2, h65, hargs⟩ := reduce_args h.inv.valid hs h22 hr
    generalize yyDefact.getD s 0 = r at *
    have hkinds : List.Forall₂ Kind ((q.p.stack.take (yyR2.getD r 0)).map (·.2)).reverse
        (q.vals.take (yyR2.getD r 0)).reverse := by
      refine List.rel_reverse ?_
      rw [List.forall₂_map_left_iff]
      exact List.forall₂_take _ h.kinds
    rcases hg with hg | hg | ⟨p', hg, hi, -, -⟩
    · rw [he] at hg
      unfold reduce at hg
      simp only at hg
      split at hg
      · cases hg
      · split at hg <;> cases hg
    · -- an error raised by the action
      have hh : ∃ h', (if r = 6 then q.heap.new.2.free q.heap.new.1 else some q.heap) = some h' ∧
          Live h' (q.own.bag + (hbag q.vals + m)) := by
        split
        · exact h.live.new.free
        · exact ⟨_, rfl, h.live⟩
      obtain ⟨h1, e1, l1⟩ := hh
      obtain ⟨h', e, l⟩ := finish_ok false q.p.drv (q.p.stack.drop (yyR2.getD r 0))
        (q.vals.drop (yyR2.getD r 0)) (m := m) (o := q.own) (h := h1) (l1.le (by
          rw [← hbag_take (yyR2.getD r 0) q.vals]
          gcongr
          exact Multiset.le_add_left _ _))
      refine .inr ⟨false, _, h', _, ?_, hg, l, h.same⟩
      rw [← e]
      unfold hstep
      rw [hg, hm]
      simp only
      rw [e1]
    · have hred := hg
      rw [he] at hred
      unfold reduce at hred
      simp only at hred
      split at hred
      · cases hred
      · rename_i t w rs hdrop
        rw [hst, hd] at hred
        rw [hst] at hdrop
        split at hred
        · cases hred
        · cases hred
        · rename_i d' u hact
          obtain ⟨h', o', v', e', k', l', s'⟩ := (hact_ok h2 h65 hact hargs hkinds (m := hbag (q.vals.drop (yyR2.getD r 0)) + m) (h := q.heap) (o := q.own)
            (h.live.of_eq (by rw [← hbag_take (yyR2.getD r 0) q.vals, add_assoc])) h.same).ex
          refine .inl ⟨⟨p', h', o', v' :: q.vals.drop (yyR2.getD r 0)⟩, ?_, hg, hi, ?_, ?_, ?_, ?_⟩
          · unfold hstep
            rw [hg, hm]
            simp only
            rw [e']
          · cases hred
            exact hp
          · cases hred
            refine .cons k' ?_
            rw [← hdrop]
            exact List.forall₂_drop _ h.kinds
          · exact l'.of_eq (by simp only [hbag_cons]; abel)
          · cases hred
            exact s'
  · rw [he] at hg
    rcases hg with hg | hg | ⟨p', hg, -⟩ <;> cases hg
  · rcases hg with hg | hg | ⟨p', hg, hi, -, -⟩
    · rw [he] at hg; cases hg
    · rw [he] at hg; cases hg
    · refine .inl ⟨⟨p', q.heap, q.own, .none :: q.vals⟩, ?_, hg, hi, ?_, ?_, ?_, ?_⟩
      · unfold hstep
        rw [hg, hm]
      · rw [he] at hg; cases hg
        intro la hla; cases hla
      · rw [he] at hg; cases hg
        exact .cons hk h.kinds
      · refine h.live.of_eq ?_
        simp only [hbag_cons, HVal.addrs, zero_add]
      · rw [he] at hg; cases hg
        exact h.same

theorem hrun_ok {d0 : Driver} {m : Multiset Addr} : ∀ (n : ℕ) {q : HState}, HInv d0 m q →
    (∃ q', hrun n q = .next q' ∧ run n q.p = .next q'.p ∧ HInv d0 m q') ∨
    (∃ b d h' o, hrun n q = .stop b d h' o ∧ run n q.p = (if b then .accept d else .abort d) ∧
      Live h' (o.bag + m) ∧ Same d o)
  | 0, q, h => .inl ⟨q, rfl, rfl, h⟩
  | n + 1, q, h => by
    rcases hstep_ok h with ⟨q', e, e', h'⟩ | ⟨b, d, h', o, e, e', l, s⟩
    · rw [hrun, run, e, e']
      exact hrun_ok n h'
    · refine .inr ⟨b, d, h', o, by rw [hrun, e], ?_, l, s⟩
      rw [run, e']
      cases b <;> rfl

theorem hinv_start {d : Driver} {text : List Char} {h : Heap} {o : Own} {m : Multiset Addr}
    (hl : Live h (o.bag + m)) (hs : Same d o) : HInv d m (hstart d text h o) where
  inv := inv_start d text
  plain := by intro la h; cases h
  kinds := .cons trivial .nil
  live := hl.of_eq (by simp [hstart, hbag, HVal.addrs])
  same := hs

/-! ## Programs -/

def drvBag : Option (Driver × Own) → Multiset Addr
  | none => 0
  | some e => e.2.bag

def monBag : Option (Option Obj) → Multiset Addr
  | some (some o) => o.addrs
  | _ => 0

def World.bag (w : World) : Multiset Addr := (w.drivers.map drvBag).sum + (w.monitors.map monBag).sum

theorem sum_set {α : Type} (f : α → Multiset Addr) : ∀ (l : List α) (i : ℕ) {e : α}, l[i]? = some e →
    ∃ R, (l.map f).sum = f e + R ∧ ∀ e', ((l.set i e').map f).sum = f e' + R
  | [], i, e, h => by simp at h
  | x :: l, 0, e, h => by
    simp only [List.getElem?_cons_zero, Option.some.injEq] at h
    subst h
    exact ⟨(l.map f).sum, by simp, by simp⟩
  | x :: l, i + 1, e, h => by
    rw [List.getElem?_cons_succ] at h
    obtain ⟨R, h1, h2⟩ := sum_set f l i h
    refine ⟨f x + R, by rw [List.map_cons, List.sum_cons, h1]; abel, fun e' => ?_⟩
    rw [List.set_cons_succ, List.map_cons, List.sum_cons, h2 e']
    abel

/-- The program's memory is in order. -/
structure WInv (w : World) : Prop where
  live : Live w.heap w.bag
  same : ∀ d o, some (d, o) ∈ w.drivers → Same d o

theorem winv_init : WInv World.init := ⟨⟨by simp [World.bag, World.init], by simp [World.bag, World.init],
  by simp [World.init]⟩, by simp [World.init]⟩

/-- Changing one driver. -/
theorem drv_frame {w : World} {i : ℕ} {d : Driver} {o : Own} (hw : WInv w)
    (hi : w.drivers[i]? = some (some (d, o))) :
    ∃ m, Live w.heap (o.bag + m) ∧ Same d o ∧
      (∀ h' d' o', Live h' (o'.bag + m) → Same d' o' → WInv (w.putDrv i h' (d', o'))) ∧
      (∀ h', Live h' m → WInv { w with heap := h', drivers := w.drivers.set i none }) := by
  obtain ⟨R, h1, h2⟩ := sum_set drvBag w.drivers i hi
  refine ⟨R + (w.monitors.map monBag).sum, ?_, hw.same d o (List.mem_of_getElem? hi), ?_, ?_⟩
  · refine hw.live.of_eq ?_
    rw [World.bag, h1, add_assoc]
    rfl
  · intro h' d' o' hl hs
    refine ⟨hl.of_eq ?_, fun d2 o2 hm => ?_⟩
    · rw [World.bag, World.putDrv]
      simp only
      rw [h2, add_assoc]
      rfl
    · rcases List.mem_or_eq_of_mem_set hm with hm | hm
      · exact hw.same d2 o2 hm
      · cases hm
        exact hs
  · intro h' hl
    refine ⟨hl.of_eq ?_, fun d2 o2 hm => ?_⟩
    · rw [World.bag]
      simp only
      rw [h2]
      simp [drvBag]
    · rcases List.mem_or_eq_of_mem_set hm with hm | hm
      · exact hw.same d2 o2 hm
      · cases hm

theorem mon_frame {w : World} {k : ℕ} {f : Option Obj} (hw : WInv w)
    (hi : w.monitors[k]? = some (some f)) :
    ∃ m, Live w.heap (bag f.toList + m) ∧
      (∀ h' f', Live h' (bag f'.toList + m) → WInv (w.putMon k h' f')) ∧
      (∀ h', Live h' m → WInv { w with heap := h', monitors := w.monitors.set k none }) := by
  have hb : ∀ f : Option Obj, monBag (some f) = bag f.toList := by
    intro f
    cases f <;> simp [monBag, bag]
  obtain ⟨R, h1, h2⟩ := sum_set monBag w.monitors k hi
  refine ⟨R + (w.drivers.map drvBag).sum, ?_, ?_, ?_⟩
  · refine hw.live.of_eq ?_
    rw [World.bag, h1, ← hb]
    abel
  · intro h' f' hl
    refine ⟨hl.of_eq ?_, hw.same⟩
    rw [World.bag, World.putMon]
    simp only
    rw [h2, ← hb]
    abel
  · intro h' hl
    refine ⟨hl.of_eq ?_, hw.same⟩
    rw [World.bag]
    simp only
    rw [h2]
    simp only [monBag]
    abel

theorem add_drv {w : World} {h : Heap} {d : Driver} {o : Own} (hw : WInv w) (hl : Live h (o.bag + w.bag))
    (hs : Same d o) : WInv (w.addDrv h (d, o)) := by
  refine ⟨hl.of_eq ?_, fun d2 o2 hm => ?_⟩
  · simp only [World.bag, World.addDrv, List.map_append, List.sum_append, List.map_cons, List.map_nil,
      List.sum_cons, List.sum_nil, drvBag]
    abel
  · simp only [World.addDrv, List.mem_append, List.mem_singleton, Option.some.injEq, Prod.mk.injEq] at hm
    rcases hm with hm | ⟨rfl, rfl⟩
    · exact hw.same d2 o2 hm
    · exact hs

theorem add_mon {w : World} {h : Heap} {f : Option Obj} (hw : WInv w) (hl : Live h (bag f.toList + w.bag)) :
    WInv (w.addMon h f) := by
  refine ⟨hl.of_eq ?_, hw.same⟩
  simp only [World.bag, World.addMon, List.map_append, List.sum_append, List.map_cons, List.map_nil,
      List.sum_cons, List.sum_nil]
  cases f <;> simp [monBag, bag] <;> abel

theorem clearQueue_nil : ∀ (q : List (List Obj)) (h : Heap), (∀ l ∈ q, l = []) → clearQueue q h = some h
  | [], _, _ => rfl
  | l :: q, h, hq => by
    rw [hq l (by simp), clearQueue]
    simp [clearTests, clearQueue_nil q h (fun l hl => hq l (by simp [hl]))]

theorem flatten_nil {q : List (List Obj)} (hq : ∀ l ∈ q, l = []) : q.flatten = [] := by
  simpa using hq

theorem assignQueue_ok : ∀ (q q' : List (List Obj)) {h : Heap} {m : Multiset Addr},
    (∀ l ∈ q', l = []) → Live h (bag q.flatten + m) →
    ∃ h', assignQueue q q' h = some h' ∧ Live h' m
  | q, [], h, m, _, hl => by
    rw [assignQueue.eq_1]
    exact Live.delAll _ hl
  | [], l' :: q', h, m, _, hl => ⟨h, by rw [assignQueue.eq_2]; simp, by simpa [bag] using hl⟩
  | l :: q, l' :: q', h, m, hq, hl => by
    rw [List.flatten_cons, bag_append, add_assoc] at hl
    obtain ⟨h1, e1, l1⟩ := Live.delAll l hl
    obtain ⟨h2, e2, l2⟩ := assignQueue_ok q q' (fun l hl => hq l (by simp [hl])) l1
    refine ⟨h2, ?_, l2⟩
    rw [assignQueue, assignTests, hq l' (by simp)]
    simp [e1, e2]

theorem runFront_ok : ∀ (l : List Obj) {h : Heap} {m : Multiset Addr}, Live h (bag l + m) →
    ∃ h', runFront l h = some h' ∧ Live h' m
  | [], h, m, hl => ⟨h, rfl, by rwa [bag_nil, zero_add] at hl⟩
  | o :: l, h, m, hl => by
    rw [bag_cons, add_assoc] at hl
    have hv := Live.visit o hl (Multiset.le_add_right _ _)
    obtain ⟨h1, e1, l1⟩ := Live.del o hl
    obtain ⟨h2, e2, l2⟩ := runFront_ok l l1
    exact ⟨h2, by simp [runFront, hv, e1, e2], l2⟩

theorem cloneOpt_ok (f : Option Obj) {h : Heap} {m : Multiset Addr} (hl : Live h m)
    (hf : bag f.toList ≤ m) :
    ∃ f' h', cloneOpt f h = some (f', h') ∧ Live h' (bag f'.toList + m) := by
  cases f with
  | none => exact ⟨none, h, rfl, by simpa [bag] using hl⟩
  | some o =>
    obtain ⟨o', h', e, l⟩ := Live.clone o hl (by simpa [bag] using hf)
    exact ⟨some o', h', by simp [cloneOpt, e], by simpa [bag] using l⟩

theorem delOpt_ok (f : Option Obj) {h : Heap} {m : Multiset Addr} (hl : Live h (bag f.toList + m)) :
    ∃ h', delOpt f h = some h' ∧ Live h' m := by
  cases f with
  | none => exact ⟨h, rfl, by simpa [bag] using hl⟩
  | some o => exact Live.del o (hl.of_eq (by simp [bag]))

end Mem
end STLRom
