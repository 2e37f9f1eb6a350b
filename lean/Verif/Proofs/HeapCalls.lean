import Verif.Spec.Heap
import Verif.Proofs.Heap
import Verif.Props.Queue
import Verif.Proofs.Calls

/-!
# Calls and the memory

Every call that stays clear of copied and cleared tests keeps the memory in order.
-/

namespace STLRom
namespace Mem
open Parse

theorem mem_addrs {o : Obj} {a : Addr} : a ∈ o.addrs ↔ Uses o a := by
  induction o with
  | leaf b =>
    rw [Obj.addrs, Multiset.mem_singleton]
    exact ⟨fun h => h ▸ .leaf _, fun h => by cases h; rfl⟩
  | un b c ih =>
    rw [Obj.addrs, Multiset.mem_cons, ih]
    exact ⟨fun h => by rcases h with rfl | h; exacts [.un _ _, .unC h],
      fun h => by cases h; exacts [.inl rfl, .inr ‹_›]⟩
  | tun b i c ih =>
    rw [Obj.addrs, Multiset.mem_cons, Multiset.mem_cons, ih]
    exact ⟨fun h => by rcases h with rfl | rfl | h; exacts [.tun _ _ _, .tunI _ _ _, .tunC h],
      fun h => by cases h; exacts [.inl rfl, .inr (.inl rfl), .inr (.inr ‹_›)]⟩
  | bin b l r ihl ihr =>
    rw [Obj.addrs, Multiset.mem_cons, Multiset.mem_add, ihl, ihr]
    exact ⟨fun h => by rcases h with rfl | h | h; exacts [.bin _ _ _, .binL h, .binR h],
      fun h => by cases h; exacts [.inl rfl, .inr (.inl ‹_›), .inr (.inr ‹_›)]⟩
  | tbin b i l r ihl ihr =>
    rw [Obj.addrs, Multiset.mem_cons, Multiset.mem_cons, Multiset.mem_add, ihl, ihr]
    exact ⟨fun h => by
        rcases h with rfl | rfl | h | h
        exacts [.tbin _ _ _ _, .tbinI _ _ _ _, .tbinL h, .tbinR h],
      fun h => by
        cases h
        exacts [.inl rfl, .inr (.inl rfl), .inr (.inr (.inl ‹_›)), .inr (.inr (.inr ‹_›))]⟩

theorem same_keys {d : Driver} {o o' : Own} (h : Same d o)
    (e : o'.formulas.map (·.1) = o.formulas.map (·.1)) : Same d o' := by
  have key : ∀ (l l' : Assoc Obj), l.map (·.1) = l'.map (·.1) → ∀ s,
      (l.lookup s).isSome = (l'.lookup s).isSome := by
    intro l
    induction l with
    | nil => intro l' e s; cases l' <;> simp_all
    | cons p l ih =>
      intro l' e s
      cases l' with
      | nil => simp at e
      | cons p' l' =>
        simp only [List.map_cons, List.cons.injEq] at e
        obtain ⟨k, v⟩ := p
        obtain ⟨k', v'⟩ := p'
        simp only at e
        rw [List.lookup_cons, List.lookup_cons, e.1]
        split
        · rfl
        · exact ih l' e.2 s
  intro s
  rw [h s]
  exact (key _ _ e s).symm

theorem same_map {d : Driver} {o : Own} (h : Same d o) (f : Tr → Tr) (d' : Driver)
    (e : d'.formulas = d.formulas.map fun p => (p.1, f p.2)) : Same d' o := by
  intro s
  rw [e, STLRom.lookup_map, Option.isSome_map]
  exact h s

theorem le_formulas (o : Own) (m : Multiset Addr) : bag (vals o.formulas) ≤ o.bag + m := by
  rw [Own.bag, add_assoc]
  exact Multiset.le_add_right _ _

/-- The formulas of one driver among all. -/
theorem drv_bag {w : World} {i : ℕ} {d : Driver} {o : Own}
    (hi : w.drivers[i]? = some (some (d, o))) :
    ∃ R, w.bag = o.bag + R ∧ ∀ h' e, (w.putDrv i h' e).bag = e.2.bag + R := by
  obtain ⟨R, h1, h2⟩ := sum_set drvBag w.drivers i hi
  refine ⟨R + (w.monitors.map monBag).sum, ?_, fun h' e => ?_⟩
  · rw [World.bag, h1, add_assoc]; rfl
  · rw [World.bag, World.putDrv]
    simp only
    rw [h2, add_assoc]
    rfl

theorem mon_bag {w : World} {k : ℕ} {f : Option Obj} (hk : w.monitors[k]? = some (some f)) :
    ∃ R, w.bag = bag f.toList + R ∧ ∀ h' f', (w.putMon k h' f').bag = bag f'.toList + R := by
  have hb : ∀ f : Option Obj, monBag (some f) = bag f.toList := by
    intro f
    cases f <;> simp [monBag, bag]
  obtain ⟨R, h1, h2⟩ := sum_set monBag w.monitors k hk
  refine ⟨R + (w.drivers.map drvBag).sum, ?_, fun h' e => ?_⟩
  · rw [World.bag, h1, hb]; abel
  · rw [World.bag, World.putMon]
    simp only
    rw [h2, hb]
    abel

theorem putDrv_get {w : World} {i j : ℕ} {h : Heap} {e e' : Driver × Own} (hij : i ≠ j)
    (hj : w.drivers[j]? = some (some e)) : (w.putDrv i h e').drivers[j]? = some (some e) := by
  rw [World.putDrv]
  simp only
  rw [List.getElem?_set_ne hij, hj]

theorem putMon_get {w : World} {i j : ℕ} {h : Heap} {f f' : Option Obj} (hij : i ≠ j)
    (hj : w.monitors[j]? = some (some f)) : (w.putMon i h f').monitors[j]? = some (some f) := by
  rw [World.putMon]
  simp only
  rw [List.getElem?_set_ne hij, hj]

theorem Own.bag_init : Own.init.bag = 0 := by simp [Own.bag, Own.init, Mem.bag, vals]

theorem putDrv_inv {w : World} {i : ℕ} {h : Heap} {d : Driver} {o : Own} (hw : WInv w)
    (hl : Live h (w.putDrv i h (d, o)).bag) (hs : Same d o) : WInv (w.putDrv i h (d, o)) := by
  refine ⟨hl, fun d2 o2 hm => ?_⟩
  rcases List.mem_or_eq_of_mem_set hm with hm | hm
  · exact hw.same d2 o2 hm
  · cases hm
    exact hs

/-- One call keeps the memory in order. -/
theorem does_ok {w : World} {c : Cmd} {r : Option World} (hw : WInv w) (hc : Calm w c)
    (h : Does w c r) : ∃ w', r = some w' ∧ WInv w' := by
  cases h with
  | newDriver =>
    exact ⟨_, rfl, add_drv hw (hw.live.of_eq (by simp [Own.bag, Own.init, bag, vals]))
      (fun s => rfl)⟩
  | parse hi he =>
    obtain ⟨m, hl, hs, hf, -⟩ := drv_frame hw hi
    refine ⟨_, rfl, ?_⟩
    rcases hrun_ok _ (hinv_start hl hs) with ⟨q', e, -⟩ | ⟨b, d2, h2, o2, e, -, l2, s2⟩
    · rw [he] at e; cases e
    · rw [he] at e; cases e
      exact hf _ _ _ l2 s2
  | parseBad hi he =>
    obtain ⟨m, hl, hs, hf, -⟩ := drv_frame hw hi
    rcases hrun_ok _ (hinv_start hl hs) with ⟨q', e, -⟩ | ⟨b, d2, h2, o2, e, -, l2, s2⟩
    · rw [he] at e; cases e
    · rw [he] at e; cases e
  | addTraceTest hi =>
    obtain ⟨m, hl, hs, hf, -⟩ := drv_frame hw hi
    exact ⟨_, rfl, hf _ _ _ (owns_trace hl) (hs.of_eq rfl rfl)⟩
  | @addStlTest _ d o id mm hi =>
    obtain ⟨m, hl, hs, hf, -⟩ := drv_frame hw hi
    obtain ⟨h', o', e, l', e'⟩ := owns_again id hl
    refine ⟨_, by rw [e]; rfl, hf _ _ _ l' (hs.of_eq ?_ e')⟩
    simp only [Driver.addStlTest2]; split <;> rfl
  | @runTests _ d o l q g fmt d' b hi hq hr =>
    obtain ⟨m, hl, hs, hf, -⟩ := drv_frame hw hi
    obtain ⟨h', e, l'⟩ := runFront_ok l (m := bag (vals o.formulas) + (bag (vals o.tests) + bag q.flatten) + m)
      (hl.of_eq (by rw [Own.bag, hq, List.flatten_cons, bag_append]; abel))
    refine ⟨_, by rw [e]; rfl, hf h' d' { o with queue := q } l' (hs.of_eq ?_ rfl)⟩
    obtain ⟨-, -, -, -, -, -, -, -, -, -, -, -, -, hform⟩ := Props.C51_run hr
    exact hform
  | @popTrace _ d o hi =>
    obtain ⟨m, hl, hs, hf, -⟩ := drv_frame hw hi
    unfold Mem.popTrace
    split
    · exact ⟨_, rfl, hf _ _ _ hl (hs.of_eq rfl rfl)⟩
    · rename_i l q hq
      obtain ⟨h', e, l'⟩ := Live.delAll l (m := bag (vals o.formulas) + (bag (vals o.tests) + bag q.flatten) + m)
        (hl.of_eq (by rw [Own.bag, hq, List.flatten_cons, bag_append]; abel))
      exact ⟨_, by rw [e]; rfl,
        hf h' { d with queue := d.queue.tail } { o with queue := q } l' (hs.of_eq rfl rfl)⟩
  | @clear _ d o hi =>
    obtain ⟨m, hl, hs, hf, -⟩ := drv_frame hw hi
    obtain ⟨h1, e1, l1⟩ := Live.delAll (vals o.formulas) (hl.of_eq (by rw [Own.bag, add_assoc]))
    obtain ⟨h2, e2, l2⟩ := Live.delAll (vals o.tests) (l1.of_eq (by rw [add_assoc]))
    have hq := hc d o hi
    refine ⟨_, ?_, hf h2 d.clear Own.init (l2.le ?_) (fun s => rfl)⟩
    · unfold Mem.clear
      simp only [vals] at e1 e2
      simp [e1, e2, clearQueue_nil _ _ hq]
    · simp only [Own.bag, Own.init, vals, List.map_nil, List.flatten_nil, bag_nil, zero_add]
      exact Multiset.le_add_left _ _
  | @setParam _ d o name x hi =>
    obtain ⟨m, hl, hs, hf, -⟩ := drv_frame hw hi
    have hv := Live.visitAll (vals o.formulas) hl (le_formulas o m)
    simp only [vals] at hv
    exact ⟨_, by rw [hv]; rfl, hf _ _ _ hl (same_map hs _ _ rfl)⟩
  | @online _ d o g id t0 hi =>
    obtain ⟨m, hl, hs, hf, -⟩ := drv_frame hw hi
    have hv := Live.visitAll (o.formulas.lookup id).toList hl (by
      cases hx : o.formulas.lookup id with
      | none => exact Multiset.zero_le _
      | some x => simpa [bag] using (lookup_le hx).trans (le_formulas o m))
    refine ⟨_, by rw [hv]; rfl, hf _ _ _ hl ?_⟩
    have hset : ∀ T T', d.formulas.lookup id = some T' →
        Same { d with formulas := d.formulas.set id T } o := by
      intro T T' hT s
      simp only [Assoc.lookup_set]
      split
      · rename_i e
        rw [← hs s, e, hT]
        rfl
      · exact hs s
    unfold Driver.getOnlineRob
    split_ifs
    · exact hs
    · split
      · exact hs
      · rename_i T hT
        simp only
        split
        · exact hset _ _ hT
        · exact hset _ _ hT
  | @copy _ d o hi =>
    obtain ⟨m, hl, hs, -, -⟩ := drv_frame hw hi
    obtain ⟨ht, hq⟩ := hc d o hi
    have hle : bag (vals o.formulas) ≤ w.bag := by
      obtain ⟨R, h1, -⟩ := sum_set drvBag w.drivers _ hi
      rw [World.bag, h1, add_assoc]
      exact le_formulas o _
    obtain ⟨fs, h', e, l', k'⟩ := Live.cloneMap o.formulas hw.live hle
    refine ⟨_, by rw [Mem.copyNew, e]; rfl, add_drv hw (l'.of_eq ?_) ?_⟩
    · simp [Own.bag, ht, flatten_nil hq, bag, vals]
    · exact same_keys (o := o) (same_map hs _ _ rfl) k'
  | @assign i j d o d' o' hij hi hj =>
    obtain ⟨R, b1, b2⟩ := drv_bag hi
    obtain ⟨R2, b3, -⟩ := drv_bag (putDrv_get (h := w.heap) (e' := (d, Own.init)) hij hj)
    rw [b2, Own.bag_init, zero_add] at b3
    have hl : Live w.heap (o.bag + R) := hw.live.of_eq b1
    obtain ⟨ht, hq⟩ := (hc.resolve_left hij) d' o' hj
    have hs' := hw.same d' o' (List.mem_of_getElem? hj)
    have hle : bag (vals o'.formulas) ≤ R := by
      rw [b3]
      exact le_formulas o' _
    obtain ⟨h1, e1, l1⟩ := Live.delAll (vals o.tests)
      (m := bag o.queue.flatten + (bag (vals o.formulas) + R)) (hl.of_eq (by rw [Own.bag]; abel))
    obtain ⟨h2, e2, l2⟩ := assignQueue_ok o.queue o'.queue hq l1
    obtain ⟨h3, e3, l3⟩ := Live.delAll (vals o.formulas) l2
    obtain ⟨fs, h4, e4, l4, k4⟩ := Live.cloneMap o'.formulas l3 hle
    refine ⟨w.putDrv i h4 (d'.copy, { o' with formulas := fs }), ?_, putDrv_inv hw (l4.of_eq ?_) ?_⟩
    · unfold Mem.assign
      simp only [vals] at e1 e3
      simp [e1, e2, e3, e4]
    · rw [b2]
      simp [Own.bag, ht, flatten_nil hq, bag, vals]
    · exact same_keys (o := o') (same_map hs' _ _ rfl) k4
  | assignSelf hi => exact ⟨w, rfl, hw⟩
  | @move i d o hi =>
    obtain ⟨R, b1, b2⟩ := drv_bag hi
    have hl : Live w.heap (o.bag + R) := hw.live.of_eq b1
    have hs := hw.same d o (List.mem_of_getElem? hi)
    refine ⟨_, rfl, add_drv (putDrv_inv hw ?_ (fun s => rfl)) ?_ hs⟩
    · rw [b2, Own.bag_init, zero_add]
      exact hl.le (Multiset.le_add_left _ _)
    · rw [b2, Own.bag_init, zero_add]
      exact hl
  | @moveAssign i j d o d' o' hij hi hj =>
    obtain ⟨R, b1, b2⟩ := drv_bag hj
    have hs' := hw.same d' o' (List.mem_of_getElem? hj)
    obtain ⟨R2, b3, -⟩ := drv_bag (putDrv_get (h := w.heap) (e' := (d', Own.init)) hij.symm hi)
    rw [b2, Own.bag_init, zero_add] at b3
    have hl : Live w.heap (bag (vals o.tests) + (bag o.queue.flatten +
        (bag (vals o.formulas) + (o'.bag + R2)))) :=
      hw.live.of_eq (by rw [b1, b3, Own.bag, Own.bag]; abel)
    obtain ⟨h1, e1, l1⟩ := Live.delAll _ hl
    obtain ⟨h2, e2, l2⟩ := Live.delAll _ l1
    obtain ⟨h3, e3, l3⟩ := Live.delAll _ l2
    obtain ⟨R3, b5, b6⟩ := drv_bag (putDrv_get (h := h3) (e' := (d'.move.2, Own.init)) hij.symm hi)
    have hR : R3 = R2 := by
      rw [b2, Own.bag_init, zero_add, b3] at b5
      exact (add_left_cancel b5).symm
    refine ⟨(w.putDrv j h3 (d'.move.2, Own.init)).putDrv i h3 (d'.move.1, o'), ?_,
      ⟨?_, fun d2 o2 hm => ?_⟩⟩
    · unfold Mem.moveAssign
      simp only [vals] at e1 e3
      simp [e1, e2, e3]
    · exact l3.of_eq (by rw [b6, hR])
    · rcases List.mem_or_eq_of_mem_set hm with hm | hm
      · rcases List.mem_or_eq_of_mem_set hm with hm | hm
        · exact hw.same d2 o2 hm
        · cases hm
          exact fun s => rfl
      · cases hm
        exact hs'
  | moveSelf hi => exact ⟨w, rfl, hw⟩
  | @destroy _ d o hi =>
    obtain ⟨m, hl, hs, -, hf⟩ := drv_frame hw hi
    obtain ⟨h1, e1, l1⟩ := Live.delAll (vals o.formulas) (hl.of_eq (by rw [Own.bag, add_assoc]))
    obtain ⟨h2, e2, l2⟩ := Live.delAll o.queue.flatten (m := bag (vals o.tests) + m) (l1.of_eq (by abel))
    obtain ⟨h3, e3, l3⟩ := Live.delAll (vals o.tests) l2
    refine ⟨_, ?_, hf h3 l3⟩
    unfold Mem.destroy
    simp only [vals] at e1 e3
    simp [e1, e2, e3]
  | @getMonitor _ d o id hi =>
    have hle : bag (o.formulas.lookup id).toList ≤ w.bag := by
      obtain ⟨R, h1, -⟩ := sum_set drvBag w.drivers _ hi
      rw [World.bag, h1, add_assoc]
      refine le_trans ?_ (le_formulas o _)
      cases hx : o.formulas.lookup id with
      | none => exact Multiset.zero_le _
      | some x => simpa [bag] using lookup_le hx
    obtain ⟨f', h', e, l⟩ := cloneOpt_ok _ hw.live hle
    exact ⟨_, by rw [e]; rfl, add_mon hw l⟩
  | @useMonitor k f hi =>
    obtain ⟨m, hl, -, -⟩ := mon_frame hw hi
    have hv := Live.visitAll f.toList hl (Multiset.le_add_right _ _)
    exact ⟨w, by rw [hv]; rfl, hw⟩
  | @copyMonitor k f hi =>
    have hle : bag f.toList ≤ w.bag := by
      obtain ⟨R, h1, -⟩ := sum_set monBag w.monitors _ hi
      rw [World.bag, h1]
      refine le_trans ?_ (Multiset.le_add_left _ _)
      refine le_trans ?_ (Multiset.le_add_right _ _)
      cases f <;> simp [bag, monBag]
    obtain ⟨f', h', e, l⟩ := cloneOpt_ok _ hw.live hle
    exact ⟨_, by rw [e]; rfl, add_mon hw l⟩
  | @assignMonitor k l f f' hkl hk hl' =>
    obtain ⟨R, b1, b2⟩ := mon_bag hk
    obtain ⟨R2, b3, -⟩ := mon_bag (putMon_get (h := w.heap) (f' := none) hkl hl')
    rw [b2] at b3
    have hle : bag f'.toList ≤ R := by
      simp only [Option.toList_none, bag_nil, zero_add] at b3
      rw [b3]
      exact Multiset.le_add_right _ _
    obtain ⟨h1, e1, l1⟩ := delOpt_ok f (hw.live.of_eq b1)
    obtain ⟨f2, h2, e2, l2⟩ := cloneOpt_ok f' l1 hle
    exact ⟨w.putMon k h2 f2, by simp [e1, e2], l2.of_eq (b2 h2 f2).symm, hw.same⟩
  | assignMonitorSelf hk => exact ⟨w, rfl, hw⟩
  | @moveMonitor k f hk =>
    obtain ⟨R, b1, b2⟩ := mon_bag hk
    have hl : Live w.heap (bag f.toList + R) := hw.live.of_eq b1
    have b3 := b2 w.heap none
    simp only [Option.toList_none, bag_nil, zero_add] at b3
    refine ⟨_, rfl, add_mon ⟨?_, hw.same⟩ (hl.of_eq (by rw [b3]))⟩
    rw [b3]
    exact hl.le (Multiset.le_add_left _ _)
  | @destroyMonitor k f hk =>
    obtain ⟨m, hl, -, hf⟩ := mon_frame hw hk
    obtain ⟨h1, e1, l1⟩ := delOpt_ok f hl
    exact ⟨_, by rw [e1]; rfl, hf h1 l1⟩

end Mem
end STLRom
