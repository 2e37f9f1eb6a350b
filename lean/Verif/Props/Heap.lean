import Verif.Spec.Heap
import Verif.Proofs.HeapCalls
import Verif.Proofs.Leak
import Verif.Props.Parser

/-!
# C56: no formula is released twice; C46: formulas share no memory

`History cs r`: the calls `cs`, from the start of a program, lead to `r`, where `none` is a
`delete` of, or an access to, memory that is not allocated.
-/

namespace STLRom
namespace Props
open Parse Mem

theorem calm_inv {cs : List Mem.Cmd} {r : Option Mem.World} (h : CalmHistory cs r) :
    ∃ w, r = some w ∧ WInv w := by
  induction h with
  | start => exact ⟨_, rfl, winv_init⟩
  | call _ hc hd ih =>
    obtain ⟨w, e, hw⟩ := ih
    cases e
    exact does_ok hw hc hd

/-- C56: no history of calls releases a formula twice or uses one that has been released,
provided `clear` is called on drivers without queued tests and only drivers without tests are
copied.  What is missing is exactly what fails: `C56_clear_false`, `C56_copy_false`. -/
theorem C56_partial {cs : List Mem.Cmd} {r : Option Mem.World} (h : CalmHistory cs r) : r ≠ none := by
  obtain ⟨w, e, -⟩ := calm_inv h
  simp [e]

/-- C56, parsing: after such a history any text can be parsed, accepted or not, with the result
that `parse_string` has in the model without memory. -/
theorem C56_parse {cs : List Mem.Cmd} {w : Mem.World} (h : CalmHistory cs (some w)) {i : ℕ} {d : Driver}
    {o : Own} (hi : w.drivers[i]? = some (some (d, o))) (text : List Char) :
    ∃ b d' h' o', Parses d text b d' ∧
      Does w (.parse i text) (some (w.putDrv i h' (d', o'))) := by
  obtain ⟨w', e, hw⟩ := calm_inv h
  cases e
  obtain ⟨m, hl, hs, -, -⟩ := drv_frame hw hi
  have key := hrun_ok (10 * text.length + 3) (hinv_start (text := text) hl hs)
  obtain ⟨d1, h1⟩ := C60_stops d text
  rcases key with ⟨q', -, e, -⟩ | ⟨b, d2, h2, o2, e, er, -, -⟩
  · have e' : run (10 * text.length + 3) (start d text) = .next q'.p := e
    rcases h1 with h1 | h1 <;> rw [h1] at e' <;> cases e'
  · exact ⟨b, d2, h2, o2, ⟨_, er⟩, .parse hi e⟩

theorem bag_roots (w : Mem.World) : bag (roots w) = w.bag := by
  rw [roots, bag_append, Mem.World.bag]
  congr 1
  · induction w.drivers with
    | nil => rfl
    | cons e l ih =>
      rw [List.flatMap_cons, bag_append, ih, List.map_cons, List.sum_cons]
      congr 1
      cases e with
      | none => rfl
      | some e => rw [drvBag, Own.bag, bag_append, bag_append]; rfl
  · induction w.monitors with
    | nil => rfl
    | cons e l ih =>
      rw [List.flatMap_cons, bag_append, ih, List.map_cons, List.sum_cons]
      congr 1
      rcases e with _ | _ | f
      · rfl
      · rfl
      · simp [monBag, bag]

theorem mem_bag {f : Obj} {a : Addr} : ∀ {l : List Obj}, f ∈ l → Uses f a → a ∈ bag l
  | [], hf, _ => by simp at hf
  | g :: l, hf, ha => by
    rw [bag_cons, Multiset.mem_add]
    rcases List.mem_cons.1 hf with rfl | hf
    · exact .inl (mem_addrs.2 ha)
    · exact .inr (mem_bag hf ha)

theorem apart_of_nodup : ∀ (l : List Obj), (bag l).Nodup → l.Pairwise Apart
  | [], _ => .nil
  | f :: l, h => by
    rw [bag_cons, Multiset.nodup_add] at h
    refine .cons (fun f' hf a ha hb => ?_) (apart_of_nodup l h.2.1)
    exact Multiset.disjoint_left.1 h.2.2 (mem_addrs.2 ha) (mem_bag hf hb)

/-- C46 and C56: after such a history no two formulas that the program holds have an object in
common, wherever they are held: a formula and those that refer to it by name, the test entries,
the queued tests, copies of the driver, monitors.  All their objects are allocated. -/
theorem C46_apart_partial {cs : List Mem.Cmd} {w : Mem.World} (h : CalmHistory cs (some w)) :
    (roots w).Pairwise Apart ∧ ∀ f ∈ roots w, ∀ a, Uses f a → Allocated w a := by
  obtain ⟨w', e, hw⟩ := calm_inv h
  cases e
  have hl := hw.live.of_eq (bag_roots w).symm
  refine ⟨apart_of_nodup _ hl.1, fun f hf a ha => ?_⟩
  exact hl.2 a (mem_bag hf ha)

theorem free_freed {h h' : Heap} {a : Addr} (e : h.free a = some h') : h'.freed = a :: h.freed := by
  rw [Heap.free] at e
  split at e
  · cases e; rfl
  · cases e

theorem del_freed : ∀ (o : Obj) {h h' : Heap}, del o h = some h' →
    h.freed ⊆ h'.freed ∧ ∀ a, Uses o a → a ∈ h'.freed
  | .leaf a, h, h', e => by
    rw [del] at e
    rw [free_freed e]
    exact ⟨fun x hx => by simp [hx], fun x hx => by cases hx; simp⟩
  | .un a c, h, h', e => by
    rw [del] at e
    simp only [Option.bind_eq_bind, Option.bind_eq_some_iff] at e
    obtain ⟨-, -, h1, e1, e2⟩ := e
    obtain ⟨k1, k2⟩ := del_freed c e1
    rw [free_freed e2]
    refine ⟨fun x hx => by simp [k1 hx], fun x hx => ?_⟩
    cases hx with
    | un => simp
    | unC hx => simp [k2 x hx]
  | .tun a i c, h, h', e => by
    rw [del] at e
    simp only [Option.bind_eq_bind, Option.bind_eq_some_iff] at e
    obtain ⟨-, -, h0, e0, h1, e1, e2⟩ := e
    obtain ⟨k1, k2⟩ := del_freed c e1
    rw [free_freed e0] at k1
    rw [free_freed e2]
    refine ⟨fun x hx => by simp [k1 (List.mem_cons_of_mem _ hx)], fun x hx => ?_⟩
    cases hx with
    | tun => simp
    | tunI => simp [k1 List.mem_cons_self]
    | tunC hx => simp [k2 x hx]
  | .bin a l r, h, h', e => by
    rw [del] at e
    simp only [Option.bind_eq_bind, Option.bind_eq_some_iff] at e
    obtain ⟨-, -, h1, e1, h2, e2, e3⟩ := e
    obtain ⟨k1, k2⟩ := del_freed l e1
    obtain ⟨k3, k4⟩ := del_freed r e2
    rw [free_freed e3]
    refine ⟨fun x hx => by simp [k3 (k1 hx)], fun x hx => ?_⟩
    cases hx with
    | bin => simp
    | binL hx => simp [k3 (k2 x hx)]
    | binR hx => simp [k4 x hx]
  | .tbin a i l r, h, h', e => by
    rw [del] at e
    simp only [Option.bind_eq_bind, Option.bind_eq_some_iff] at e
    obtain ⟨-, -, h0, e0, h1, e1, h2, e2, e3⟩ := e
    obtain ⟨k1, k2⟩ := del_freed l e1
    obtain ⟨k3, k4⟩ := del_freed r e2
    rw [free_freed e0] at k1
    rw [free_freed e3]
    refine ⟨fun x hx => by simp [k3 (k1 (List.mem_cons_of_mem _ hx))], fun x hx => ?_⟩
    cases hx with
    | tbin => simp
    | tbinI => simp [k3 (k1 List.mem_cons_self)]
    | tbinL hx => simp [k3 (k2 x hx)]
    | tbinR hx => simp [k4 x hx]

theorem delAll_freed : ∀ (l : List Obj) {h h' : Heap}, delAll l h = some h' →
    h.freed ⊆ h'.freed ∧ ∀ f ∈ l, ∀ a, Uses f a → a ∈ h'.freed
  | [], h, h', e => by cases e; simp
  | o :: l, h, h', e => by
    rw [delAll] at e
    simp only [Option.bind_eq_bind, Option.bind_eq_some_iff] at e
    obtain ⟨h1, e1, e2⟩ := e
    obtain ⟨k1, k2⟩ := del_freed o e1
    obtain ⟨k3, k4⟩ := delAll_freed l e2
    refine ⟨fun x hx => k3 (k1 hx), fun f hf a ha => ?_⟩
    rcases List.mem_cons.1 hf with rfl | hf
    · exact k3 (k2 a ha)
    · exact k4 f hf a ha

/-- C56, the other half: destroying a driver releases all its formulas, those of its test entries
and those in its queue. -/
theorem C56_destroy {w w' : Mem.World} {i : ℕ} {d : Driver} {o : Own}
    (hi : w.drivers[i]? = some (some (d, o))) (h : Does w (.destroy i) (some w')) :
    ∀ f ∈ o.formulas.map (·.2) ++ (o.tests.map (·.2) ++ o.queue.flatten), ∀ a, Uses f a →
      ¬ Allocated w' a := by
  generalize hr : some w' = r at h
  cases h with
  | destroy hi' =>
    rw [hi] at hi'
    cases hi'
    rw [eq_comm, Option.map_eq_some_iff] at hr
    obtain ⟨h', e, rfl⟩ := hr
    rw [Mem.destroy] at e
    simp only [Option.bind_eq_bind, Option.bind_eq_some_iff] at e
    obtain ⟨h1, e1, h2, e2, e3⟩ := e
    obtain ⟨-, k2⟩ := delAll_freed _ e1
    obtain ⟨k3, k4⟩ := delAll_freed _ e2
    obtain ⟨k5, k6⟩ := delAll_freed _ e3
    intro f hf a ha hal
    refine hal.2 ?_
    rcases List.mem_append.1 hf with hf | hf
    · exact k5 (k3 (k2 f hf a ha))
    rcases List.mem_append.1 hf with hf | hf
    · exact k6 f hf a ha
    · exact k5 (k4 f hf a ha)

/-- Destroying a monitor releases its formula. -/
theorem C56_destroy_monitor {w w' : Mem.World} {k : ℕ} {f : Obj}
    (hk : w.monitors[k]? = some (some (some f))) (h : Does w (.destroyMonitor k) (some w')) :
    ∀ a, Uses f a → ¬ Allocated w' a := by
  generalize hr : some w' = r at h
  cases h with
  | destroyMonitor hk' =>
    rw [hk] at hk'
    cases hk'
    rw [eq_comm, Option.map_eq_some_iff] at hr
    obtain ⟨h', e, rfl⟩ := hr
    rw [delOpt] at e
    exact fun a ha hal => hal.2 ((del_freed f e).2 a ha)

/-- The objects that are allocated. -/
def allocated (h : Heap) : Multiset Addr := ((Finset.range h.next).filter (· ∉ h.freed)).val

theorem mem_allocated {h : Heap} {a : Addr} : a ∈ allocated h ↔ a < h.next ∧ a ∉ h.freed := by
  unfold allocated
  rw [Finset.mem_val, Finset.mem_filter, Finset.mem_range]

/-- C56, parsing: a text that leaves the driver with the formulas, test entries and queue it had - whether the text
is accepted or rejected, and wherever it is rejected - leaves exactly those objects allocated that were allocated
before, and they are the same objects: what the parser made for the unfinished formula is released.  (For texts that
do change them this fails: `C56_leak_false`.) -/
theorem C56_text_partial {cs : List Mem.Cmd} {w w' : Mem.World} (h : CalmHistory cs (some w)) {i : ℕ}
    {text : List Char} {d d' : Driver} {o : Own} (hi : w.drivers[i]? = some (some (d, o)))
    (hp : Does w (.parse i text) (some w')) (hi' : w'.drivers[i]? = some (some (d', o))) (a : Addr) :
    Allocated w' a ↔ Allocated w a := by
  obtain ⟨w0, e, hw⟩ := calm_inv h
  cases e
  generalize hr : some w' = r at hp
  cases hp with
  | parseBad _ _ => cases hr
  | @parse _ d1 o1 _ n b d2 h2 o2 hi1 hrun =>
    rw [hi] at hi1
    cases hi1
    cases hr
    have ho : o2 = o := by
      have hlt : i < w.drivers.length := (List.getElem?_eq_some_iff.1 hi).1
      simp only [World.putDrv, List.getElem?_set, hlt, if_true, Option.some.injEq, Prod.mk.injEq] at hi'
      exact hi'.2
    subst ho
    obtain ⟨m0, hl0, hs, -, -⟩ := drv_frame hw hi
    have hle : o2.bag ≤ allocated w.heap :=
      (Multiset.le_iff_subset (Multiset.nodup_add.1 hl0.nodup).1).2 fun x hx =>
        mem_allocated.2 (hl0.live x (Multiset.mem_add.2 (.inl hx)))
    have hl : Live w.heap (o2.bag + (allocated w.heap - o2.bag)) := by
      rw [add_tsub_cancel_of_le hle]
      exact ⟨Finset.nodup _, fun x hx => mem_allocated.1 hx, hl0.freed⟩
    have hinv := hinv_start (text := text) hl hs
    rcases hrun_tight n hinv (linv_start d text o2 (m := allocated w.heap) fun x h1 h2 => mem_allocated.2 ⟨h1, h2⟩) hrun
      with ⟨-, ht⟩ | hm
    · refine ⟨fun ha => mem_allocated.1 (ht a ha.1 ha.2), fun ha => ?_⟩
      rcases hrun_ok n hinv with ⟨q', e, -, -⟩ | ⟨b3, d3, h3, o3, e, -, l3, -⟩
      · rw [hrun] at e; cases e
      · rw [hrun] at e
        cases e
        rw [add_tsub_cancel_of_le hle] at l3
        exact l3.live a (mem_allocated.2 ha)
    · exact absurd rfl (moved_ne hl rfl hm)

/-! ## What fails -/

/-- The outcome of a parse but for the driver's contents. -/
def memory : HStep → Option (Bool × Heap × Own)
  | .stop b _ h o => some (b, h, o)
  | _ => none

theorem of_memory {r : HStep} {b : Bool} {h : Heap} {o : Own} (e : memory r = some (b, h, o)) :
    ∃ d, r = .stop b d h o := by
  cases r <;> simp_all [memory]

/-- A text with one test. -/
def testText : List Char := "signal x test T:\"e\"{u{x[t]>0,\"p\",\"n\",true}}".toList

def testOwn : Own := ⟨[], [("u", .bin 8 (.leaf 6) (.leaf 7))], [[.bin 11 (.leaf 9) (.leaf 10)]]⟩

theorem testText_memory :
    memory (hrun 200 (hstart Driver.init testText ⟨0, []⟩ Own.init)) =
      some (true, ⟨12, [5, 4, 3]⟩, testOwn) := by decide +kernel

/-- After the text has been parsed. -/
theorem tested : ∃ d, CalmHistory [.newDriver, .parse 0 testText]
    (some ⟨⟨12, [5, 4, 3]⟩, [some (d, testOwn)], []⟩) := by
  obtain ⟨d, e⟩ := of_memory testText_memory
  refine ⟨d, ?_⟩
  have h1 : CalmHistory [.newDriver] (some (Mem.World.init.addDrv Mem.World.init.heap (Driver.init, Own.init))) :=
    .call .start trivial (.newDriver _)
  exact .call (c := .parse 0 testText) h1 trivial (.parse (i := 0) rfl e)

theorem calm_history {cs : List Mem.Cmd} {r : Option Mem.World} (h : CalmHistory cs r) : History cs r := by
  induction h with
  | start => exact .start
  | call _ _ hd ih => exact .call ih hd

/-- C56 fails for `clear`: with a test in the queue, its formula is deleted by the loop and again
by the test's destructor. -/
theorem C56_clear_false :
    ¬ ∀ cs r, History cs r → r ≠ none := by
  intro h
  obtain ⟨d, hd⟩ := tested
  refine h _ _ (.call (c := .clear 0) (calm_history hd) (.clear (d := d) (o := testOwn) rfl)) ?_
  have e : Mem.clear ⟨12, [5, 4, 3]⟩ testOwn = none := by decide +kernel
  simp [e]

/-- C56 fails for copies: the copy of a driver with a test shares the test's formula; the
destructors of the two release it twice. -/
theorem C56_copy_false :
    ¬ ∀ cs r, History cs r → (∀ c ∈ cs, ∀ i, c ≠ .clear i) → r ≠ none := by
  intro h
  obtain ⟨d, hd⟩ := tested
  have e1 : Mem.copyNew ⟨12, [5, 4, 3]⟩ testOwn = some (⟨12, [5, 4, 3]⟩, testOwn) := by
    decide +kernel
  have h1 : History [.newDriver, .parse 0 testText, .copy 0]
      (some ⟨⟨12, [5, 4, 3]⟩, [some (d, testOwn), some (d.copy, testOwn)], []⟩) := by
    have := History.call (c := .copy 0) (calm_history hd) (.copy (d := d) (o := testOwn) rfl)
    simp only [e1] at this
    exact this
  have e2 : Mem.destroy ⟨12, [5, 4, 3]⟩ testOwn = some ⟨12, [8, 7, 6, 11, 10, 9, 5, 4, 3]⟩ := by
    decide +kernel
  have h2 : History [.newDriver, .parse 0 testText, .copy 0, .destroy 0]
      (some ⟨⟨12, [8, 7, 6, 11, 10, 9, 5, 4, 3]⟩, [none, some (d.copy, testOwn)], []⟩) := by
    have := History.call (c := .destroy 0) h1 (.destroy (d := d) (o := testOwn) rfl)
    simp only [e2] at this
    exact this
  have e3 : Mem.destroy ⟨12, [8, 7, 6, 11, 10, 9, 5, 4, 3]⟩ testOwn = none := by decide +kernel
  refine h _ _ (.call (c := .destroy 1) h2 (.destroy (i := 1) (d := d.copy) (o := testOwn) rfl)) ?_ ?_
  · simp
  · simp [e3]

/-- A text that defines a name twice. -/
def twiceText : List Char := "signal x phi:=x[t]>0 phi:=x[t]<0".toList

theorem twiceText_memory :
    memory (hrun 200 (hstart Driver.init twiceText ⟨0, []⟩ Own.init)) =
      some (true, ⟨6, []⟩, ⟨[("phi", .bin 5 (.leaf 3) (.leaf 4))], [], []⟩) := by decide +kernel

/-- "Exactly once" fails the other way too: a formula that is defined again stays allocated when
every driver and monitor is gone. -/
theorem C56_leak_false :
    ¬ ∀ cs w, CalmHistory cs (some w) → (∀ e ∈ w.drivers, e = none) → (∀ e ∈ w.monitors, e = none) →
      ∀ a, ¬ Allocated w a := by
  intro h
  obtain ⟨d, e⟩ := of_memory twiceText_memory
  have h1 : CalmHistory [.newDriver] (some (Mem.World.init.addDrv Mem.World.init.heap (Driver.init, Own.init))) :=
    .call .start trivial (.newDriver _)
  have h2 : CalmHistory [.newDriver, .parse 0 twiceText]
      (some ⟨⟨6, []⟩, [some (d, ⟨[("phi", .bin 5 (.leaf 3) (.leaf 4))], [], []⟩)], []⟩) :=
    .call (c := .parse 0 twiceText) h1 trivial (.parse (i := 0) rfl e)
  have e3 : Mem.destroy ⟨6, []⟩ ⟨[("phi", .bin 5 (.leaf 3) (.leaf 4))], [], []⟩ =
      some ⟨6, [5, 4, 3]⟩ := by decide +kernel
  have h3 : CalmHistory [.newDriver, .parse 0 twiceText, .destroy 0] (some ⟨⟨6, [5, 4, 3]⟩, [none], []⟩) := by
    have := CalmHistory.call (c := .destroy 0) h2 trivial (.destroy (i := 0) rfl)
    simp only [e3] at this
    exact this
  exact h _ _ h3 (by simp) (by simp) 0 ⟨by decide, by decide⟩

/-! ## Cases the hypotheses admit -/

/-- `tested` is such a history, with a driver that holds two formulas of three objects each. -/
example : ∃ cs w, CalmHistory cs (some w) ∧
    roots w = [.bin 8 (.leaf 6) (.leaf 7), .bin 11 (.leaf 9) (.leaf 10)] := by
  obtain ⟨d, h⟩ := tested
  exact ⟨_, _, h, by rfl⟩

/-- A text that is rejected after fifteen objects, two intervals among them, have been made for its formula. -/
def brokenText : List Char := "signal x phi:=(x[t]>0 and x[t]>0) until_[0,1] x[t] + 2 > 0 or ev_[0,1] )".toList

theorem brokenText_memory :
    memory (hrun 200 (hstart Driver.init brokenText ⟨0, []⟩ Own.init)) =
      some (false, ⟨15, [13, 12, 11, 10, 9, 8, 6, 5, 4, 3, 2, 1, 0, 7, 14]⟩, Own.init) := by decide +kernel

example : ∃ w w' d d', CalmHistory [.newDriver] (some w) ∧ w.drivers[0]? = some (some (d, Own.init)) ∧
    Does w (.parse 0 brokenText) (some w') ∧ w'.drivers[0]? = some (some (d', Own.init)) ∧ w'.heap.next = 15 := by
  obtain ⟨d, e⟩ := of_memory brokenText_memory
  exact ⟨_, _, Driver.init, d, .call .start trivial (.newDriver _), rfl, .parse (i := 0) rfl e, rfl, rfl⟩

/-- A driver with a formula that another one refers to by name, copied, and a monitor. -/
def refText : List Char := "signal x phi:=x[t]>0 psi:=not phi".toList

def refOwn : Own :=
  ⟨[("phi", .bin 2 (.leaf 0) (.leaf 1)), ("psi", .un 6 (.bin 5 (.leaf 3) (.leaf 4)))], [], []⟩

def refCopy : Own :=
  ⟨[("phi", .bin 9 (.leaf 7) (.leaf 8)), ("psi", .un 13 (.bin 12 (.leaf 10) (.leaf 11)))], [], []⟩

theorem refText_memory :
    memory (hrun 200 (hstart Driver.init refText ⟨0, []⟩ Own.init)) = some (true, ⟨7, []⟩, refOwn) := by
  decide +kernel

example : ∃ d, CalmHistory [.newDriver, .parse 0 refText, .copy 0, .getMonitor 1 "psi"]
    (some ⟨⟨18, []⟩, [some (d, refOwn), some (d.copy, refCopy)],
      [some (some (.un 17 (.bin 16 (.leaf 14) (.leaf 15))))]⟩) := by
  obtain ⟨d, e⟩ := of_memory refText_memory
  refine ⟨d, ?_⟩
  have h1 : CalmHistory [.newDriver] (some (Mem.World.init.addDrv Mem.World.init.heap (Driver.init, Own.init))) :=
    .call .start trivial (.newDriver _)
  have h2 : CalmHistory [.newDriver, .parse 0 refText] (some ⟨⟨7, []⟩, [some (d, refOwn)], []⟩) :=
    .call (c := .parse 0 refText) h1 trivial (.parse (i := 0) rfl e)
  have h3 : CalmHistory [.newDriver, .parse 0 refText, .copy 0]
      (some ⟨⟨14, []⟩, [some (d, refOwn), some (d.copy, refCopy)], []⟩) := by
    have e3 : Mem.copyNew ⟨7, []⟩ refOwn = some (⟨14, []⟩, refCopy) := by decide +kernel
    have := CalmHistory.call (c := .copy 0) h2
      (by intro d o h; cases h; exact ⟨rfl, by simp [refOwn]⟩) (.copy (i := 0) rfl)
    simp only [e3] at this
    exact this
  have e4 : cloneOpt (refCopy.formulas.lookup "psi") ⟨14, []⟩ =
      some (some (.un 17 (.bin 16 (.leaf 14) (.leaf 15))), ⟨18, []⟩) := by decide +kernel
  have := CalmHistory.call (c := .getMonitor 1 "psi") h3 trivial (.getMonitor (i := 1) rfl)
  simp only [e4] at this
  exact this

end Props
end STLRom
