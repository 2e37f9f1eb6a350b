import Verif.Spec.Signal
import Verif.Proofs.Or

/-!
# From the specification's reading of a signal to one-sided points
-/

namespace STLRom

theorem getLast?_filter' (l : List Sample) (f : Sample → Bool) :
    (l.filter f).getLast? = l.reverse.find? f := by
  rw [← List.head?_reverse, ← List.filter_reverse, List.head?_filter]

theorem Spec.value_eq (x : Signal) (t : ℚ) : Spec.value x t = val x.samples (pl t) := by
  simp only [Spec.value, val, cur_eq_find, getLast?_filter', pl_le_pl, Sample.valueAt, pl_time]

theorem Spec.leftValue_eq (x : Signal) (t : ℚ) : Spec.leftValue x t = val x.samples (mi t) := by
  simp only [Spec.leftValue, val, cur_eq_find, getLast?_filter', pl_le_mi, Sample.valueAt, mi_time]

theorem Spec.Ordered.wf0 {x : Signal} (h : Spec.Ordered x) : WF0 x :=
  ⟨h.ne, h.head, h.sorted, h.le_end⟩

theorem Spec.Proper.wf {x : Signal} (h : Spec.Proper x) : WF x :=
  ⟨h.toOrdered.wf0, h.strict⟩

theorem WF0.ordered {x : Signal} (h : WF0 x) : Spec.Ordered x :=
  ⟨h.ne, h.head, h.sorted, h.le_end⟩

theorem WF.proper {x : Signal} (h : WF x) : Spec.Proper x :=
  ⟨h.toWF0.ordered, h.strict⟩

theorem WF0.value {x : Signal} (h : WF0 x) {t : ℚ} (ht : x.beginTime ≤ t) :
    Spec.value x t = some (x.v (pl t)) := by
  rw [Spec.value_eq]; exact h.val (by simpa using ht)

theorem WF0.leftValue {x : Signal} (h : WF0 x) {t : ℚ} (ht : x.beginTime < t) :
    Spec.leftValue x t = some (x.v (mi t)) := by
  rw [Spec.leftValue_eq]; exact h.val (by simpa using ht)

end STLRom
