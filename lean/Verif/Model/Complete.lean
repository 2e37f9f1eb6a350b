import Verif.Model.Transducer

/-!
# How far the signals of a formula are complete
-/

namespace STLRom
namespace Tr

/-- `get_end_complete` (src/transducer.cpp:114-116, 125-129): temporal operators with one operand overwrite the
version of `transducer`; `P` is the map behind `param_map_ptr`. -/
def endComplete (P : Assoc ℚ) : Tr → ℚ
  | .ev _ I c | .alw _ I c => c.st.z.endTime - ivB P I
  | T => T.st.z.endTime

/-- `get_end_complete_low` (src/transducer.cpp:117-119, 131-135). -/
def endCompleteLow (P : Assoc ℚ) : Tr → ℚ
  | .ev _ I c | .alw _ I c => c.st.zlow.endTime - ivB P I
  | T => T.st.zlow.endTime

/-- `get_end_complete_up` (src/transducer.cpp:120-122, 137-141). -/
def endCompleteUp (P : Assoc ℚ) : Tr → ℚ
  | .ev _ I c | .alw _ I c => c.st.zup.endTime - ivB P I
  | T => T.st.zup.endTime

end Tr
end STLRom
