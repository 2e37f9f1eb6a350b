import Verif.Model.Driver

/-!
# Writing robustness signals to files

`STLDriver::dump` and `Signal::dumpFile`.
-/

namespace STLRom

/-- `Signal::dumpFile` (include/signal.h:163-175), the text written: one line per sample; `fmt` is
`ofs << Sample` (src/signal.cpp:247-251).  A file that cannot be opened is not modelled. -/
def Signal.dumpFile (fmt : Sample → String) (z : Signal) : String :=
  String.join (z.samples.map fun p => fmt p ++ "\n")

namespace Driver

/-- The loop of `STLDriver::dump` (src/stl_driver.cpp:292-299): the root's data pointer is set, its own
horizon is propagated again and its robustness computed, without a reset.  A formula never evaluated
has leaves without data (`none`), and its nodes have no parameters, which does not matter as reading
the leaf comes first.  The nodes of an evaluated one point at the driver's parameters and data; a driver that
was copied or moved from another, where they point at the other, is not modelled. -/
def dumpLoop (g : Globals) (data : List (List ℚ)) (params : Assoc ℚ) : Assoc Tr →
    M (Assoc Tr × List (String × Signal))
  | [] => .ok ([], [])
  | (id, T) :: fs => do
    let (T, _) ← (T.setHorizon params T.st.start T.st.stop).computeRob ⟨g.B, g.sem, g.ip, data, params⟩
    let (fs, files) ← dumpLoop g data params fs
    .ok ((id, T) :: fs, (id ++ ".out", T.st.z) :: files)

/-- `STLDriver::dump` (src/stl_driver.cpp:287-300): the driver afterwards, the names of the files
and the signals written to them.  (The map's traversal order is left open: formulas do not share
nodes.) -/
def dump (g : Globals) (d : Driver) : M (Driver × List (String × Signal)) := do
  let (fs, files) ← dumpLoop g d.data d.params d.formulas
  .ok ({ d with formulas := fs }, files)

end Driver
end STLRom
