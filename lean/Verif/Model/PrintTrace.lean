import Verif.Model.Stream

/-!
# Printing a part of a trace
-/

namespace STLRom
namespace Stream

/-- The loop of `print(const trace_data&, const int max_iter)` (src/tools.cpp:95-102); the second number is `counter`.
The overflow of the counter is not modelled. -/
def printLoop (f : Fmt) (maxIter : ℤ) : ℤ → List (List ℚ) → List Char
  | _, [] => []
  | k, row :: l =>
    (row.flatMap (fun x => f.num x ++ [' ']) ++ ['\n']) ++ if maxIter ≤ k + 1 then [] else printLoop f maxIter (k + 1) l

/-- `print(const trace_data&, const int max_iter)` (src/tools.cpp:90-103): the text written to `cout`, of format `f`. -/
def printSome (f : Fmt) (data : List (List ℚ)) (maxIter : ℤ) : List Char := printLoop f maxIter 0 data

/-- `print(const trace_data&)` (src/tools.cpp:77-88): every row. -/
def printAll (f : Fmt) : List (List ℚ) → List Char
  | [] => []
  | row :: l => (row.flatMap (fun x => f.num x ++ [' ']) ++ ['\n']) ++ printAll f l

end Stream
end STLRom
