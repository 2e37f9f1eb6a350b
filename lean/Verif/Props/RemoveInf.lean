import Verif.Spec.Signal
import Mathlib.Tactic.NormNum
import Mathlib.Tactic.Linarith

/-!
# Property C85: `removeInf`
-/

namespace STLRom
namespace Props
open Spec Signal

/-- A sample with an infinite value or slope; infinity is the number `B`. -/
def Infinite (B : ℚ) (p : Sample) : Prop := |p.value| = B ∨ |p.derivative| = B

/-- After `removeInf` no sample is infinite, and at all times the signal has the value it had or none. -/
def C85_full : Prop := ∀ (B : ℚ) (x : Signal), 0 < B → Ordered x →
  (∀ p ∈ (x.removeInf B).samples, ¬ Infinite B p) ∧
    ∀ t v, t ≤ x.endTime → value (x.removeInf B) t = some v → value x t = some v

theorem infinite_iff {B : ℚ} (hB : 0 < B) (p : Sample) : Infinite B p ↔
    (p.value = B ∨ p.derivative = B ∨ p.value = -B ∨ p.derivative = -B) := by
  unfold Infinite
  rw [abs_eq hB.le, abs_eq hB.le]
  tauto

/-- **C85**: `removeInf` cuts off the longest end that consists of infinite samples; the domain stays. -/
theorem C85_partial (B : ℚ) (x : Signal) (hB : 0 < B) : ∃ cut, x.samples = (x.removeInf B).samples ++ cut ∧
    (∀ p ∈ cut, Infinite B p) ∧ (∀ p, (x.removeInf B).samples.getLast? = some p → ¬ Infinite B p) ∧
    (x.removeInf B).beginTime = x.beginTime ∧ (x.removeInf B).endTime = x.endTime := by
  let c : Sample → Bool := fun p => decide (p.value = B ∨ p.derivative = B ∨ p.value = -B ∨ p.derivative = -B)
  refine ⟨(x.samples.reverse.takeWhile c).reverse, ?_, fun p hp => ?_, fun p hp => ?_, rfl, rfl⟩
  · show x.samples = (x.samples.reverse.dropWhile c).reverse ++ (x.samples.reverse.takeWhile c).reverse
    rw [← List.reverse_append, List.takeWhile_append_dropWhile, List.reverse_reverse]
  · have h0 : ∀ l : List Sample, ∀ q ∈ l.takeWhile c, c q = true := fun l => List.all_eq_true.1 List.all_takeWhile
    exact (infinite_iff hB p).2 (of_decide_eq_true (h0 _ p (List.mem_reverse.1 hp)))
  · have h : (x.samples.reverse.dropWhile c).head? = some p := by
      rw [← List.getLast?_reverse]
      exact hp
    have h1 : (x.samples.reverse.dropWhile c) ≠ [] := by
      intro h0
      rw [h0] at h
      cases h
    have h2 := List.head_dropWhile_not c h1
    rw [List.head?_eq_some_head h1, Option.some.injEq] at h
    rw [h] at h2
    exact fun h3 => of_decide_eq_false h2 ((infinite_iff hB p).1 h3)

/-- **C85**: before the samples that are cut off, the signal is as it was. -/
theorem C85_value_partial (B : ℚ) (x : Signal) (hB : 0 < B) (t : ℚ)
    (h : ∀ p ∈ x.samples, Infinite B p → t < p.time) :
    value (x.removeInf B) t = value x t ∧ ∀ u, u ≤ t → leftValue (x.removeInf B) u = leftValue x u := by
  obtain ⟨cut, h1, h2, -⟩ := C85_partial B x hB
  have h3 : ∀ p ∈ cut, t < p.time := fun p hp => h p (by rw [h1]; exact List.mem_append_right _ hp) (h2 p hp)
  refine ⟨?_, fun u hu => ?_⟩
  · have h4 : cut.filter (fun p => decide (p.time ≤ t)) = [] :=
      List.filter_eq_nil_iff.2 fun p hp => by simpa using h3 p hp
    unfold value
    rw [h1, List.filter_append, h4, List.append_nil]
  · have h4 : cut.filter (fun p => decide (p.time < u)) = [] :=
      List.filter_eq_nil_iff.2 fun p hp => by simpa using (hu.trans_lt (h3 p hp)).le
    unfold leftValue
    rw [h1, List.filter_append, h4, List.append_nil]

/-- **C85**: when no finite sample follows an infinite one, no sample of the result is infinite. -/
theorem C85_clean_partial (B : ℚ) (x : Signal) (hB : 0 < B)
    (h : x.samples.Pairwise fun p q => Infinite B p → Infinite B q) :
    ∀ p ∈ (x.removeInf B).samples, ¬ Infinite B p := by
  obtain ⟨cut, h1, -, h3, -⟩ := C85_partial B x hB
  rw [h1] at h
  intro p hp hi
  have h4 : (x.removeInf B).samples ≠ [] := List.ne_nil_of_mem hp
  have hq := List.getLast?_eq_some_getLast h4
  generalize (x.removeInf B).samples.getLast h4 = q at hq
  obtain ⟨l, hl⟩ := List.getLast?_eq_some_iff.1 hq
  have h5 := (List.pairwise_append.1 h).1
  rw [hl, List.pairwise_append] at h5
  rw [hl, List.mem_append, List.mem_singleton] at hp
  rcases hp with hp | rfl
  · exact h3 q hq (h5.2.2 p hp q (List.mem_singleton_self _) hi)
  · exact h3 p hq hi

/-- A rising line, then plus and minus infinity. -/
def endless : Signal := ⟨[⟨0, 1, 2⟩, ⟨3, 1000, 0⟩, ⟨4, -1000, 0⟩], 0, 5⟩

example : Ordered endless ∧ (endless.removeInf 1000).samples = [⟨0, 1, 2⟩] :=
  ⟨⟨by simp [endless], by simp [endless], by simp [endless]; norm_num, by simp [endless]; norm_num⟩, by decide +kernel⟩

example : value (endless.removeInf 1000) 2 = some 5 := by
  rw [(C85_value_partial 1000 endless (by norm_num) 2 (by
      intro p hp hi
      simp only [endless, List.mem_cons, List.not_mem_nil, or_false] at hp
      rcases hp with rfl | rfl | rfl
      · rcases hi with hi | hi <;> norm_num at hi
      · norm_num
      · norm_num)).1]
  decide +kernel

example : ∀ p ∈ (endless.removeInf 1000).samples, ¬ Infinite 1000 p :=
  C85_clean_partial 1000 endless (by norm_num) (by
    simp [endless, Infinite])

/-- **C85 does not hold**: the end of the domain stays, so that the last sample left now reaches over the part that was
cut off: where the signal was infinite it is 11. -/
theorem C85_false : ¬ C85_full := by
  intro h
  have h1 := (h 1000 endless (by norm_num)
    ⟨by simp [endless], by simp [endless], by simp [endless]; norm_num, by simp [endless]; norm_num⟩).2 5 11
    (by norm_num [endless]) (by decide +kernel)
  revert h1
  decide +kernel

/-- An infinite sample that a finite one follows stays. -/
theorem C85_middle_false : ∃ x : Signal, Ordered x ∧ ∃ p ∈ (x.removeInf 1000).samples, Infinite 1000 p :=
  ⟨⟨[⟨0, 1000, 0⟩, ⟨1, 2, 0⟩], 0, 2⟩, ⟨by simp, by simp, by simp, by simp⟩, ⟨0, 1000, 0⟩, by decide +kernel,
    .inl (by norm_num)⟩

end Props
end STLRom
