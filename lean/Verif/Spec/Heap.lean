import Verif.Model.Heap

/-!
# Memory: what is asked for

The objects a formula consists of, histories of calls, and the calls that stay clear of tests.
-/

namespace STLRom
namespace Mem

/-- The object at `a` is part of the formula. -/
inductive Uses : Obj → Addr → Prop where
  | leaf (a) : Uses (.leaf a) a
  | un (a c) : Uses (.un a c) a
  | unC {a c x} : Uses c x → Uses (.un a c) x
  | tun (a i c) : Uses (.tun a i c) a
  | tunI (a i c) : Uses (.tun a i c) i
  | tunC {a i c x} : Uses c x → Uses (.tun a i c) x
  | bin (a l r) : Uses (.bin a l r) a
  | binL {a l r x} : Uses l x → Uses (.bin a l r) x
  | binR {a l r x} : Uses r x → Uses (.bin a l r) x
  | tbin (a i l r) : Uses (.tbin a i l r) a
  | tbinI (a i l r) : Uses (.tbin a i l r) i
  | tbinL {a i l r x} : Uses l x → Uses (.tbin a i l r) x
  | tbinR {a i l r x} : Uses r x → Uses (.tbin a i l r) x

/-- The calls `cs` from the start of a program lead to `r`; `none` is a memory error in the last
of them. -/
inductive History : List Cmd → Option World → Prop where
  | start : History [] (some World.init)
  | call {cs w c r} : History cs (some w) → Does w c r → History (cs ++ [c]) r

/-- The formulas a program holds: those of its drivers (defined, in test entries, in the queue) and
those of its monitors. -/
def roots (w : World) : List Obj :=
  w.drivers.flatMap (fun e => match e with
    | none => []
    | some (_, o) => o.formulas.map (·.2) ++ (o.tests.map (·.2) ++ o.queue.flatten)) ++
  w.monitors.flatMap (fun e => match e with
    | some (some f) => [f]
    | _ => [])

/-- No object is part of both. -/
def Apart (f f' : Obj) : Prop := ∀ a, Uses f a → ¬ Uses f' a

/-- The object is allocated. -/
def Allocated (w : World) (a : Addr) : Prop := a < w.heap.next ∧ a ∉ w.heap.freed

/-- Driver `i` has no test in its map or queue. -/
def Untested (w : World) (i : ℕ) : Prop :=
  ∀ d o, w.drivers[i]? = some (some (d, o)) → o.tests = [] ∧ ∀ l ∈ o.queue, l = []

/-- Driver `i` has no queued test. -/
def Unqueued (w : World) (i : ℕ) : Prop :=
  ∀ d o, w.drivers[i]? = some (some (d, o)) → ∀ l ∈ o.queue, l = []

/-- `clear` only without queued tests, copies only of drivers without tests. -/
def Calm (w : World) : Cmd → Prop
  | .clear i => Unqueued w i
  | .copy i => Untested w i
  | .assign i j => i = j ∨ Untested w j
  | _ => True

/-- Histories of such calls. -/
inductive CalmHistory : List Cmd → Option World → Prop where
  | start : CalmHistory [] (some World.init)
  | call {cs w c r} : CalmHistory cs (some w) → Calm w c → Does w c r → CalmHistory (cs ++ [c]) r

end Mem
end STLRom
