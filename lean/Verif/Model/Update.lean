import Verif.Model.Monitor

/-!
# Updating

`update_robustness` of src/update_transducer.cpp ("work in progress" there); nothing in the library calls it.
-/

namespace STLRom
namespace Tr

/-- `child->z` cut down to its last sample (src/update_transducer.cpp:34-36): `back()` of an empty deque is undefined
behaviour. -/
def keepLast (c : Tr) : M Tr := do
  let x ← c.st.z.back
  .ok (setZ { c.st.z with samples := [x] } c)

/-- `update_robustness` (src/update_transducer.cpp:10-43): the mutated tree and the returned value.  The classes derived
from `unary_transducer` (include/signal_expr.h:148, include/transducer.h:179,245,392,428) have the version of lines 26-43,
all others that of lines 10-23. -/
def updateRob (env : Env) : Tr → M (Tr × ℚ)
  | abs s c => do
    let (c, _) ← updateRob env c
    let c ← keepLast c
    let p ← s.z.front
    .ok (abs s c, p.value)
  | not s c => do
    let (c, _) ← updateRob env c
    let c ← keepLast c
    let p ← s.z.front
    .ok (not s c, p.value)
  | ev s I c => do
    let (c, _) ← updateRob env c
    let c ← keepLast c
    let p ← s.z.front
    .ok (ev s I c, p.value)
  | alw s I c => do
    let (c, _) ← updateRob env c
    let c ← keepLast c
    let p ← s.z.front
    .ok (alw s I c, p.value)
  | T => do
    let (T, _) ← computeRob env T
    let p ← T.st.z.front
    .ok (T, p.value)

end Tr
end STLRom
