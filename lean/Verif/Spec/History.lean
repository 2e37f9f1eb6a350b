import Verif.Model.World

/-!
# Which part of a monitor is its input, and well-shaped data
-/

namespace STLRom
namespace Spec

/-- A formula with everything that evaluation computes erased: horizons, signals, read
positions and the cached values of named parameters.  What is left is the formula as
written: operators, intervals, signal names with their columns, literal constants, parameter
names. -/
def forget : Tr → Tr
  | .sig _ v m _ => .sig .init v m none
  | .const _ p v _ => .const .init p (if p = "" then v else 0) none
  | .abs _ c => .abs .init (forget c)
  | .plus _ l r => .plus .init (forget l) (forget r)
  | .minus _ l r => .minus .init (forget l) (forget r)
  | .mult _ l r => .mult .init (forget l) (forget r)
  | .atom _ k l r => .atom .init k (forget l) (forget r)
  | .not _ c => .not .init (forget c)
  | .and _ l r => .and .init (forget l) (forget r)
  | .or _ l r => .or .init (forget l) (forget r)
  | .implies _ l r => .implies .init (forget l) (forget r)
  | .ev _ I c => .ev .init I (forget c)
  | .alw _ I c => .alw .init I (forget c)
  | .untl _ l I r => .untl .init (forget l) I (forget r)

/-- Two monitors with a formula have the same inputs. -/
structure SameInputs (m m' : Monitor) : Prop where
  formula : ∃ T T', m.formula = some T ∧ m'.formula = some T' ∧ forget T = forget T'
  data : m.data = m'.data
  params : m.params = m'.params
  sem : m.sem = m'.sem
  ip : m.ip = m'.ip

/-- The calls that evaluate. -/
def isEval : MonOp → Bool
  | .eval0 | .eval1 _ | .eval2 _ _ => true
  | _ => false

/-- Data rows `n + 1` wide with strictly increasing first entries. -/
def WellShaped (n : ℕ) (data : List (List ℚ)) : Prop :=
  (∀ row ∈ data, row.length = n + 1) ∧
  data.Pairwise fun r s => ∀ t u, r.head? = some t → s.head? = some u → t < u

/-- The calls of a program that go to monitor `i`. -/
def monOps (i : ℕ) (cs : List Cmd) : List MonOp :=
  cs.filterMap fun c => match c with
    | .mon j op => if j = i then some op else none
    | _ => none

/-- The replies to the calls that go to monitor `i`. -/
def monReplies (i : ℕ) (rs : List (Cmd × M Reply)) : List (M Reply) :=
  rs.filterMap fun c => match c with
    | (.mon j _, r) => if j = i then some r else none
    | _ => none

/-- The calls of a program that go to the driver. -/
def drvOps (cs : List Cmd) : List DrvOp :=
  cs.filterMap fun c => match c with
    | .drv op => some op
    | _ => none

/-- The replies to the calls that go to the driver. -/
def drvReplies (rs : List (Cmd × M Reply)) : List (M Reply) :=
  rs.filterMap fun c => match c with
    | (.drv _, r) => some r
    | _ => none

/-- The program never assigns to monitor `i` nor moves from it. -/
def Keeps (i : ℕ) (cs : List Cmd) : Prop :=
  ∀ c ∈ cs, (∀ j, c ≠ .assignMonitor i j) ∧ c ≠ .moveMonitor i

/-- A sample that may follow the stored rows: one time and `n` values, strictly later. -/
def Accepts (n : ℕ) (data : List (List ℚ)) (row : List ℚ) : Prop :=
  row.length = n + 1 ∧
  ∀ last, data.getLast? = some last → ∀ t u, last.head? = some t → row.head? = some u → t < u

/-- The last value written to `name` by the calls, starting from `v`. -/
def lastWrite (name : String) (v : ℚ) : List MonOp → ℚ
  | [] => v
  | .setParam n x :: ops => lastWrite name (if n = name then x else v) ops
  | _ :: ops => lastWrite name v ops

/-- The last value written to `name` by the driver calls, starting from `v`. -/
def lastWriteD (name : String) (v : ℚ) : List DrvOp → ℚ
  | [] => v
  | .setParam n x :: ops => lastWriteD name (if n = name then x else v) ops
  | _ :: ops => lastWriteD name v ops

/-- The documented semantics names. -/
def semanticsNames : List String := ["SPACE", "LEFT_TIME", "RIGHT_TIME"]

/-- The documented interpolation names. -/
def interpolNames : List String := ["PREVIOUS", "LINEAR"]

/-- The last documented semantics name given to `set_semantics`, starting from `v`. -/
def lastSemantics (v : String) : List MonOp → String
  | [] => v
  | .setSemantics s :: ops => lastSemantics (if s ∈ semanticsNames then s else v) ops
  | _ :: ops => lastSemantics v ops

/-- The last documented interpolation name given to `set_interpol`, starting from `v`. -/
def lastInterpol (v : String) : List MonOp → String
  | [] => v
  | .setInterpol s :: ops => lastInterpol (if s ∈ interpolNames then s else v) ops
  | _ :: ops => lastInterpol v ops

/-- The same for driver calls. -/
def lastSemanticsD (v : String) : List DrvOp → String
  | [] => v
  | .setSemantics s :: ops => lastSemanticsD (if s ∈ semanticsNames then s else v) ops
  | _ :: ops => lastSemanticsD v ops

/-- The same for driver calls. -/
def lastInterpolD (v : String) : List DrvOp → String
  | [] => v
  | .setInterpol s :: ops => lastInterpolD (if s ∈ interpolNames then s else v) ops
  | _ :: ops => lastInterpolD v ops

/-- The numbers of a report, as `get_online_rob` lists them. -/
def numbers : M Reply → M (List ℚ)
  | .ok (.report r) => .ok [r.rob, r.lower, r.upper]
  | .ok _ => .ok []
  | .error f => .error f

end Spec
end STLRom
