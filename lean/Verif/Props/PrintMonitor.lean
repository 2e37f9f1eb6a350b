import Verif.Props.Stream

/-!
# Property C87: what `print_monitor` writes
-/

namespace STLRom
namespace Props
open Print Spec

theorem print_clone (T : Tr) : T.clone.print = T.print := by
  induction T with
  | atom _ k _ _ i1 i2 => cases k <;> simp only [Tr.clone, Tr.print, i1, i2]
  | _ => simp_all only [Tr.clone, Tr.print]

/-- `print_monitor` writes the formula named `phi`, and the lower bound of its robustness on the samples of the
driver. -/
def C87_full : Prop := ∀ (g : Globals) (d : Driver) (T : Tr), d.formulas.lookup "phi" = some T →
  ∀ r lo up, (d.getOnlineRob g "phi" 0).2.2 = .ok [r, lo, up] →
    Stream.printMonitor g d = .ok ("Monitor lower rob:".toList ++ (number lo ++ '\n' :: T.print))

/-- **C87**, the formula; the number is always -BigM, whatever samples the driver has. -/
theorem C87_partial (g : Globals) (d : Driver) (T : Tr) (h : d.formulas.lookup "phi" = some T) :
    Stream.printMonitor g d = .ok ("Monitor lower rob:".toList ++ (number (-g.B) ++ '\n' :: T.print)) := by
  unfold Stream.printMonitor Driver.getMonitor
  simp only [h]
  have e : Stream.text Fmt.init (.formula T.clone) = T.print := (printOn_init _).trans (print_clone T)
  rw [e, fmt_init]
  simp only [List.append_assoc, List.cons_append, List.nil_append]

/-- Without a formula named `phi` the call is undefined behaviour, and only then. -/
theorem C87_undefined (g : Globals) (d : Driver) :
    Stream.printMonitor g d = .error .ub ↔ d.formulas.lookup "phi" = none := by
  cases h : d.formulas.lookup "phi" with
  | none => simp [Stream.printMonitor, Driver.getMonitor, h, Monitor.init]
  | some T => simp [C87_partial g d T h]

/-- A driver with the formula `x > 1` and four samples. -/
def phiD : Driver :=
  { Driver.init with formulas := [("mu", above sy 0), ("phi", above sx 1)], smap := [("x", 1), ("y", 2)], data := exD }

example : Stream.printMonitor .init phiD = .ok "Monitor lower rob:-10000\nx[t] > 1".toList := by
  decide +kernel

/-- The lower bound is not the one of the robustness: it is -1 at time 0, whatever comes later. -/
theorem C87_false : ¬ C87_full := by
  intro h
  have := h .init phiD (above sx 1) rfl (-1) (-1) (-1) (by decide +kernel)
  revert this
  decide +kernel

/-- A driver without any formula. -/
theorem C87_none_false : Stream.printMonitor .init Driver.init = .error .ub := (C87_undefined _ _).2 rfl

end Props
end STLRom
