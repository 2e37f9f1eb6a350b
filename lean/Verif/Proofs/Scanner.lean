import Verif.Proofs.ScanTable

/-!
# The generated automaton follows the rules on every text
-/

namespace STLRom
namespace Scan
open Spec Spec.Re

theorem live_lt {s : ℕ} (h : live s = true) : s < 46 := by
  simp only [live, Bool.or_eq_true, beq_iff_eq, Bool.and_eq_true, decide_eq_true_eq] at h
  omega

theorem step_live {s b : ℕ} (h : live s = true) (hb : b < 256) :
    (next s (cls b) = jam ∧ dv b (vec s) = []) ∨
    (next s (cls b) ≠ jam ∧ live (next s (cls b)) = true ∧ dv b (vec s) = vec (next s (cls b))) := by
  have h1 := List.all_eq_true.1 check_steps s (by simpa using live_lt h)
  simp only [h, Bool.not_true, Bool.false_or] at h1
  have h2 := List.all_eq_true.1 h1 b (by simpa using hb)
  simp only at h2
  split_ifs at h2 with hj
  · exact .inl ⟨by simpa using hj, by simpa using h2⟩
  · simp only [Bool.and_eq_true, beq_iff_eq] at h2
    exact .inr ⟨by simpa using hj, h2.1, h2.2⟩

theorem accept_live {s : ℕ} (h : live s = true) : yyAccept.getD s 0 = ruleNow (vec s) := by
  have h1 := List.all_eq_true.1 check_accept s (by simpa using live_lt h)
  simpa [h] using h1

theorem sorted_live {s : ℕ} (h : live s = true) :
    ((vec s).Pairwise fun p q => p.1 < q.1) ∧ ∀ p ∈ vec s, 0 < p.1 := by
  have h1 := List.all_eq_true.1 check_sorted s (by simpa using live_lt h)
  simpa [h, sortedVec] using h1

/-- Rule `n` of `V` matches `w`. -/
def VMatches (V : Vec) (n : ℕ) (w : List Char) : Prop := ∃ r, (n, r) ∈ V ∧ r.Matches w

theorem vmatches_start (n : ℕ) (w : List Char) : VMatches startVec n w ↔ RuleMatches n w := by
  constructor
  · rintro ⟨r, h, hw⟩
    simp only [startVec, List.mem_map, Prod.mk.injEq, Prod.exists] at h
    obtain ⟨a, b, hab, rfl, rfl⟩ := h
    obtain ⟨h1, h2, h3⟩ := List.mem_zipIdx hab
    refine ⟨by omega, a, ?_, hw⟩
    rw [h3, List.getElem?_eq_getElem]
  · rintro ⟨hn, r, h, hw⟩
    refine ⟨r, ?_, hw⟩
    simp only [startVec, List.mem_map, Prod.mk.injEq, Prod.exists]
    refine ⟨r, n, ?_, rfl, rfl⟩
    rw [List.mk_mem_zipIdx_iff_le_and_getElem?_sub]
    exact ⟨hn, h⟩

theorem vmatches_cons (V : Vec) (n : ℕ) (c : Char) (w : List Char) :
    VMatches V n (c :: w) ↔ VMatches (dv (byte c) V) n w := by
  constructor
  · rintro ⟨r, h, hw⟩
    rw [matches_cons] at hw
    refine ⟨_, ?_, hw⟩
    simp only [dv, List.mem_filter, List.mem_map, Prod.mk.injEq]
    refine ⟨⟨(n, r), h, rfl, rfl⟩, ?_⟩
    simp only [ne_eq, decide_not, Bool.not_eq_true', decide_eq_false_iff_not]
    intro he
    rw [he] at hw
    exact not_matches_empty hw
  · rintro ⟨r, h, hw⟩
    simp only [dv, List.mem_filter, List.mem_map, Prod.mk.injEq, Prod.exists] at h
    obtain ⟨⟨a, b, hab, rfl, rfl⟩, _⟩ := h
    exact ⟨b, hab, matches_cons.2 hw⟩

theorem byte_lt (c : Char) : byte c < 256 := by unfold byte; omega

/-- The accepting rule of a sorted vector is its least rule matching the empty word. -/
theorem ruleNow_spec : ∀ {V : Vec}, (V.Pairwise fun p q => p.1 < q.1) → (∀ p ∈ V, 0 < p.1) →
    (ruleNow V = 0 ∧ ∀ n, ¬ VMatches V n []) ∨
    (ruleNow V ≠ 0 ∧ VMatches V (ruleNow V) [] ∧ ∀ n, VMatches V n [] → ruleNow V ≤ n)
  | [], _, _ => .inl ⟨rfl, by rintro n ⟨r, h, _⟩; simp at h⟩
  | (n, r) :: V, hs, hp => by
    have hs' := List.pairwise_cons.1 hs
    by_cases hr : nullable r = true
    · have hn : ruleNow ((n, r) :: V) = n := by simp [ruleNow, hr]
      have h0 : 0 < n := hp (n, r) (by simp)
      refine .inr ⟨by rw [hn]; omega, ⟨r, by simp [hn], matches_nil.2 hr⟩, ?_⟩
      rintro m ⟨q, hq, _⟩
      rw [hn]
      rcases List.mem_cons.1 hq with h | h
      · simp at h; omega
      · exact (hs'.1 _ h).le
    · have hn : ruleNow ((n, r) :: V) = ruleNow V := by simp [ruleNow, hr]
      have hv : ∀ m, VMatches ((n, r) :: V) m [] ↔ VMatches V m [] := by
        intro m
        constructor
        · rintro ⟨q, hq, hw⟩
          rcases List.mem_cons.1 hq with h | h
          · simp only [Prod.mk.injEq] at h
            rw [h.2] at hw
            exact absurd (matches_nil.1 hw) hr
          · exact ⟨q, h, hw⟩
        · rintro ⟨q, hq, hw⟩
          exact ⟨q, List.mem_cons_of_mem _ hq, hw⟩
      have ih := ruleNow_spec hs'.2 fun p h => hp p (List.mem_cons_of_mem _ h)
      simp only [hn, hv]
      exact ih

/-- `last` is the best match among the prefixes shorter than `k`. -/
def Best (text : List Char) (k : ℕ) (last : Option (ℕ × List Char × List Char)) : Prop :=
  (last = none ∧ ∀ m u v, text = u ++ v → u.length < k → ¬ RuleMatches m u) ∨
  (∃ n u v, last = some (n, u, v) ∧ text = u ++ v ∧ RuleMatches n u ∧
    (∀ m, RuleMatches m u → n ≤ m) ∧
    (∀ m u' v', text = u' ++ v' → u'.length < k → RuleMatches m u' → u'.length ≤ u.length))

/-- State `s` has read `u`. -/
def Read (s : ℕ) (u : List Char) : Prop :=
  live s = true ∧ ∀ n w, VMatches (vec s) n w ↔ RuleMatches n (u ++ w)

theorem prefix_eq {u u' v v' : List Char} (h : u ++ v = u' ++ v') (hl : u'.length = u.length) :
    u' = u ∧ v' = v := by
  obtain ⟨h1, h2⟩ := List.append_inj h hl.symm
  exact ⟨h1.symm, h2.symm⟩

theorem best_update {text u v : List Char} {s : ℕ} {last} (ht : text = u ++ v) (hs : Read s u)
    (hb : Best text u.length last) :
    Best text (u.length + 1)
      (if yyAccept.getD s 0 ≠ 0 then some (yyAccept.getD s 0, u, v) else last) := by
  obtain ⟨hl, hv⟩ := hs
  rw [accept_live hl]
  have hv' : ∀ n, VMatches (vec s) n [] ↔ RuleMatches n u := fun n => by rw [hv]; simp
  rcases ruleNow_spec (sorted_live hl).1 (sorted_live hl).2 with ⟨h0, h1⟩ | ⟨h0, h1, h2⟩
  · rw [if_neg (by simpa using h0)]
    have hno : ∀ m, ¬ RuleMatches m u := fun m hm => h1 m ((hv' m).2 hm)
    have hcut : ∀ m u' v', text = u' ++ v' → u'.length < u.length + 1 → RuleMatches m u' →
        u'.length < u.length := by
      intro m u' v' he hlt hm
      rcases Nat.lt_or_ge u'.length u.length with h | h
      · exact h
      · obtain ⟨rfl, _⟩ := prefix_eq (ht ▸ he : u ++ v = u' ++ v') (by omega)
        exact absurd hm (hno m)
    rcases hb with ⟨rfl, hb⟩ | ⟨n, u0, v0, rfl, hu, hm, hmin, hmax⟩
    · exact .inl ⟨rfl, fun m u' v' he hlt hm => hb m u' v' he (hcut m u' v' he hlt hm) hm⟩
    · exact .inr ⟨n, u0, v0, rfl, hu, hm, hmin, fun m u' v' he hlt hm' =>
        hmax m u' v' he (hcut m u' v' he hlt hm') hm'⟩
  · rw [if_pos h0]
    refine .inr ⟨_, u, v, rfl, ht, (hv' _).1 h1, fun m hm => h2 m ((hv' m).2 hm), ?_⟩
    intro m u' v' he hlt _
    omega

theorem munchFrom_best {text : List Char} : ∀ (v : List Char) (s : ℕ) (u : List Char) (last),
    text = u.reverse ++ v → Read s u.reverse → Best text u.length last →
    ∀ k, Best text k (munchFrom s u v last) := by
  intro v
  induction v with
  | nil =>
    intro s u last ht hs hb k
    have h := best_update ht hs (by simpa using hb)
    simp only [munchFrom]
    have hlen : ∀ u' v', text = u' ++ v' → u'.length < u.reverse.length + 1 := by
      intro u' v' he
      have := congrArg List.length he
      rw [ht] at this
      simp at this ⊢
      omega
    rcases h with ⟨h, hb⟩ | ⟨n, u0, v0, h, hu, hm, hmin, hmax⟩
    · exact .inl ⟨h, fun m u' v' he _ => hb m u' v' he (hlen u' v' he)⟩
    · exact .inr ⟨n, u0, v0, h, hu, hm, hmin, fun m u' v' he _ => hmax m u' v' he (hlen u' v' he)⟩
  | cons c v ih =>
    intro s u last ht hs hb k
    have h := best_update ht hs (by simpa using hb)
    rw [munchFrom]
    have hstep : ∀ n w, VMatches (dv (byte c) (vec s)) n w ↔
        RuleMatches n (u.reverse ++ c :: w) := by
      intro n w
      rw [← vmatches_cons, hs.2]
    rcases step_live hs.1 (byte_lt c) with ⟨hj, hd⟩ | ⟨hj, hl, hd⟩
    · rw [if_pos hj]
      have hlen : ∀ m u' v', text = u' ++ v' → RuleMatches m u' →
          u'.length < u.reverse.length + 1 := by
        intro m u' v' he hm
        by_contra hge
        push Not at hge
        have h1 : u.reverse ++ [c] <+: u' := by
          have ha : u.reverse ++ [c] <+: text := ⟨v, by simp [ht]⟩
          have hb' : u' <+: text := ⟨v', he.symm⟩
          exact List.prefix_of_prefix_length_le ha hb' (by simpa using hge)
        obtain ⟨w, rfl⟩ := h1
        have := (hstep m w).2 (by simpa using hm)
        rw [hd] at this
        obtain ⟨r, hr, _⟩ := this
        simp at hr
      rcases h with ⟨h, hb⟩ | ⟨n, u0, v0, h, hu, hm, hmin, hmax⟩
      · exact .inl ⟨h, fun m u' v' he _ hm => hb m u' v' he (hlen m u' v' he hm) hm⟩
      · exact .inr ⟨n, u0, v0, h, hu, hm, hmin, fun m u' v' he _ hm' =>
          hmax m u' v' he (hlen m u' v' he hm') hm'⟩
    · rw [if_neg hj]
      refine ih _ (c :: u) _ (by simp [ht]) ⟨hl, ?_⟩ (by simpa using h) k
      intro n w
      rw [← hd, hstep]
      simp

theorem not_rule_nil (n : ℕ) : ¬ RuleMatches n [] := by
  intro h
  rw [← vmatches_start, ← vec_one] at h
  have h1 : live 1 = true := rfl
  rcases ruleNow_spec (sorted_live h1).1 (sorted_live h1).2 with ⟨_, h2⟩ | ⟨h2, _⟩
  · exact h2 n h
  · rw [← accept_live h1] at h2
    exact h2 (by decide)

/-- Some rule matches any single character. -/
theorem rule_one (c : Char) : ∃ n, RuleMatches n [c] := by
  by_cases h : byte c = 10
  · refine ⟨2, by decide, _, rfl, ?_⟩
    refine .cls ?_
    change inCls false [(10, 10)] (byte c) = true
    rw [h]; decide
  · refine ⟨31, by decide, _, rfl, ?_⟩
    refine .cls ?_
    change inCls true [(10, 10)] (byte c) = true
    simp only [inCls, List.any_cons, List.any_nil, Bool.or_false, bne_iff_ne, ne_eq,
      Bool.not_eq_true, Bool.and_eq_false_iff, decide_eq_false_iff_not]
    omega

/-- The matching loop takes the longest match of the earliest rule off any non-empty text. -/
theorem munch_spec {text : List Char} (h : text ≠ []) :
    ∃ n u v, munch text = some (n, u, v) ∧ Munch text n u v := by
  have hr : Read 1 ([] : List Char).reverse := ⟨rfl, fun n w => by
    rw [vec_one, vmatches_start]; simp⟩
  have hb := munchFrom_best text 1 [] none rfl hr (.inl ⟨rfl, by simp⟩) (text.length + 1)
  rcases hb with ⟨_, hb⟩ | ⟨n, u, v, he, ht, hm, hmin, hmax⟩
  · obtain ⟨c, l, rfl⟩ := List.exists_cons_of_ne_nil h
    obtain ⟨n, hn⟩ := rule_one c
    exact absurd hn (hb n [c] l rfl (by simp))
  · refine ⟨n, u, v, he, ht, ?_, hm, hmin, ?_⟩
    · rintro rfl
      exact not_rule_nil n hm
    · intro m u' v' ht' hm'
      refine hmax m u' v' ht' ?_ hm'
      rw [ht']; simp; omega

theorem munch_unique {text : List Char} {n m : ℕ} {u v u' v' : List Char}
    (h : Munch text n u v) (h' : Munch text m u' v') : n = m ∧ u = u' ∧ v = v' := by
  obtain ⟨h1, _, h3, h4, h5⟩ := h
  obtain ⟨g1, _, g3, g4, g5⟩ := h'
  have hl : u'.length = u.length := le_antisymm (h5 m u' v' g1 g3) (g5 n u v h1 h3)
  obtain ⟨rfl, rfl⟩ := prefix_eq (h1 ▸ g1 : u ++ v = u' ++ v') hl
  exact ⟨le_antisymm (h4 m g3) (g4 n h3), rfl, rfl⟩

theorem munch_eq {text : List Char} {n : ℕ} {u v : List Char} (h : Munch text n u v) :
    munch text = some (n, u, v) := by
  have hne : text ≠ [] := by
    rintro rfl
    obtain ⟨h1, h2, _⟩ := h
    simp at h1
    exact h2 h1.1
  obtain ⟨n', u', v', h1, h2⟩ := munch_spec hne
  obtain ⟨rfl, rfl, rfl⟩ := munch_unique h h2
  exact h1

end Scan
end STLRom
