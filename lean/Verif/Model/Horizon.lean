import Verif.Model.Transducer

/-!
# The calls `set_horizon` and `init_horizon`, one by one

`Tr.setHorizon` computes the result of `set_horizon` in one pass.  Here the mutually recursive
calls are transcribed as written: `init_horizon` of a child is called from the child's
`set_horizon` and then again by its parent, so a node at depth `n` is visited `2ⁿ` times.
`Verif.Props.Horizon` shows that both agree.
-/

namespace STLRom
namespace Tr

/-- The two assignments of `set_horizon` (include/transducer.h:52-53). -/
def withHorizon (s e : ℚ) (T : Tr) : Tr := T.setSt { T.st with start := s, stop := e }

/-- `InitHorizon P T T'`: a call of `T.init_horizon()` with parameters `P` ends and leaves the
tree `T'`.  `x->set_horizon(s,e)` is `InitHorizon P (x.withHorizon s e)`
(include/transducer.h:51-55).

* leaves: empty body (include/signal_expr.h:34,93);
* unary nodes: src/transducer.cpp:11-14;
* binary nodes: src/transducer.cpp:16-21;
* `ev`, `alw`: src/transducer.cpp:23-34;
* `until`: src/transducer.cpp:36-47.

In the binary cases the two children are disjoint, so the order of the calls on different
children does not matter and is not recorded. -/
inductive InitHorizon (P : Assoc ℚ) : Tr → Tr → Prop
  | sig (st : St) (v : String) (m : Assoc ℕ) (t : Option ℕ) :
    InitHorizon P (sig st v m t) (sig st v m t)
  | const (st : St) (p : String) (v : ℚ) (t : Option ℕ) :
    InitHorizon P (const st p v t) (const st p v t)
  | abs {st : St} {c c1 c2 : Tr} :
    InitHorizon P (c.withHorizon st.start st.stop) c1 → InitHorizon P c1 c2 →
    InitHorizon P (abs st c) (abs st c2)
  | not {st : St} {c c1 c2 : Tr} :
    InitHorizon P (c.withHorizon st.start st.stop) c1 → InitHorizon P c1 c2 →
    InitHorizon P (not st c) (not st c2)
  | plus {st : St} {l l1 l2 r r1 r2 : Tr} :
    InitHorizon P (l.withHorizon st.start st.stop) l1 →
    InitHorizon P (r.withHorizon st.start st.stop) r1 →
    InitHorizon P l1 l2 → InitHorizon P r1 r2 →
    InitHorizon P (plus st l r) (plus st l2 r2)
  | minus {st : St} {l l1 l2 r r1 r2 : Tr} :
    InitHorizon P (l.withHorizon st.start st.stop) l1 →
    InitHorizon P (r.withHorizon st.start st.stop) r1 →
    InitHorizon P l1 l2 → InitHorizon P r1 r2 →
    InitHorizon P (minus st l r) (minus st l2 r2)
  | mult {st : St} {l l1 l2 r r1 r2 : Tr} :
    InitHorizon P (l.withHorizon st.start st.stop) l1 →
    InitHorizon P (r.withHorizon st.start st.stop) r1 →
    InitHorizon P l1 l2 → InitHorizon P r1 r2 →
    InitHorizon P (mult st l r) (mult st l2 r2)
  | atom {st : St} {k : Cmp} {l l1 l2 r r1 r2 : Tr} :
    InitHorizon P (l.withHorizon st.start st.stop) l1 →
    InitHorizon P (r.withHorizon st.start st.stop) r1 →
    InitHorizon P l1 l2 → InitHorizon P r1 r2 →
    InitHorizon P (atom st k l r) (atom st k l2 r2)
  | and {st : St} {l l1 l2 r r1 r2 : Tr} :
    InitHorizon P (l.withHorizon st.start st.stop) l1 →
    InitHorizon P (r.withHorizon st.start st.stop) r1 →
    InitHorizon P l1 l2 → InitHorizon P r1 r2 →
    InitHorizon P (and st l r) (and st l2 r2)
  | or {st : St} {l l1 l2 r r1 r2 : Tr} :
    InitHorizon P (l.withHorizon st.start st.stop) l1 →
    InitHorizon P (r.withHorizon st.start st.stop) r1 →
    InitHorizon P l1 l2 → InitHorizon P r1 r2 →
    InitHorizon P (or st l r) (or st l2 r2)
  | implies {st : St} {l l1 l2 r r1 r2 : Tr} :
    InitHorizon P (l.withHorizon st.start st.stop) l1 →
    InitHorizon P (r.withHorizon st.start st.stop) r1 →
    InitHorizon P l1 l2 → InitHorizon P r1 r2 →
    InitHorizon P (implies st l r) (implies st l2 r2)
  | ev {st : St} {I : Ival} {c c1 c2 : Tr} :
    InitHorizon P (c.withHorizon (st.start + ivA P I) (st.stop + ivB P I)) c1 →
    InitHorizon P c1 c2 →
    InitHorizon P (ev st I c) (ev st I c2)
  | alw {st : St} {I : Ival} {c c1 c2 : Tr} :
    InitHorizon P (c.withHorizon (st.start + ivA P I) (st.stop + ivB P I)) c1 →
    InitHorizon P c1 c2 →
    InitHorizon P (alw st I c) (alw st I c2)
  | untl {st : St} {I : Ival} {l l1 l2 r r1 r2 : Tr} :
    InitHorizon P (l.withHorizon st.start (st.stop + ivB P I)) l1 →
    InitHorizon P (r.withHorizon (st.start + ivA P I) (st.stop + ivB P I)) r1 →
    InitHorizon P l1 l2 → InitHorizon P r1 r2 →
    InitHorizon P (untl st l I r) (untl st l2 I r2)

/-- A call `T.set_horizon(s, e)` (include/transducer.h:51-55) ends and leaves `T'`. -/
def SetHorizon (P : Assoc ℚ) (s e : ℚ) (T T' : Tr) : Prop :=
  InitHorizon P (T.withHorizon s e) T'

end Tr
end STLRom
