import Verif.Proofs.And

/-!
# Well-formed signals, `simplify`, and the specification of `compute_and`
-/

namespace STLRom

/-- A signal as the library builds them, zero-length samples allowed: non-empty, starting
at `beginTime`, times non-decreasing and at most `endTime`. -/
structure WF0 (x : Signal) : Prop where
  ne : x.samples ≠ []
  head : ∀ p, x.samples.head? = some p → p.time = x.beginTime
  sorted : Sorted x.samples
  le_end : ∀ p ∈ x.samples, p.time ≤ x.endTime

/-- A well-formed signal whose first sample is the only one at `beginTime`. -/
structure WF (x : Signal) : Prop extends WF0 x where
  strict : ∀ p ∈ x.samples.tail, x.beginTime < p.time

/-- The value of a signal at a point. -/
def Signal.v (x : Signal) (τ : Pt) : ℚ := (val x.samples τ).getD 0

theorem WF0.begin_le_end {x : Signal} (h : WF0 x) : x.beginTime ≤ x.endTime := by
  rcases hx : x.samples with _ | ⟨p, l⟩
  · exact absurd hx h.ne
  · rw [← h.head p (by simp [hx])]
    exact h.le_end p (by simp [hx])

theorem WF0.exists_cons {x : Signal} (h : WF0 x) :
    ∃ p l, x.samples = p :: l ∧ p.time = x.beginTime := by
  rcases hx : x.samples with _ | ⟨p, l⟩
  · exact absurd hx h.ne
  · exact ⟨p, l, rfl, h.head p (by simp [hx])⟩

theorem WF0.val {x : Signal} (h : WF0 x) {τ : Pt} (hτ : pl x.beginTime ≤ τ) :
    val x.samples τ = some (x.v τ) := by
  obtain ⟨p, l, hx, hp⟩ := h.exists_cons
  have : ∃ q, cur x.samples τ = some q := by
    rcases hc : cur x.samples τ with _ | q
    · rw [cur_eq_none] at hc
      have := hc p (by simp [hx])
      rw [hp] at this
      exact absurd hτ (not_le.2 this)
    · exact ⟨q, rfl⟩
  obtain ⟨q, hq⟩ := this
  simp [Signal.v, STLRom.val, hq]

theorem Signal.v_of_val {x : Signal} {τ : Pt} {a : ℚ} (h : val x.samples τ = some a) :
    x.v τ = a := by simp [Signal.v, h]

/-- The value at the begin time is the value of the first sample. -/
theorem WF.v_begin {x : Signal} (h : WF x) {p : Sample} {l : List Sample}
    (hx : x.samples = p :: l) : x.v (pl x.beginTime) = p.value := by
  have hp : p.time = x.beginTime := h.head p (by simp [hx])
  apply Signal.v_of_val
  rw [hx, val_cons_of_lt]
  · simp [← hp, valueAt_self]
  · intro q hq
    have := h.strict q (by simp [hx, hq])
    simpa using this
  · simp [hp]

open Signal

/-! ## simplify -/

theorem val_append_last {done : List Sample} {b : Sample} (hb : done.getLast? = some b) {τ : Pt}
    (h : pl b.time ≤ τ) : cur done τ = some b := by
  obtain ⟨l, rfl⟩ : ∃ l, done = l ++ [b] := by
    rcases List.eq_nil_or_concat done with h | ⟨l, c, h⟩
    · simp [h] at hb
    · subst h
      simp at hb
      exact ⟨l, by simp [hb]⟩
  rw [cur_append]
  simp [cur, h]

theorem simplifyLoop_spec (bt : ℚ) :
    ∀ (pend done : List Sample) (n : ℕ), pend.length ≤ n →
      (∃ p l, done = p :: l ∧ p.time = bt) → (∀ q ∈ pend, q.time ≠ bt) →
      Sorted (done ++ pend) →
      ∃ l, simplifyLoop bt n (pend ++ done) = .ok l ∧ (∀ τ, val l τ = val (done ++ pend) τ) ∧
        l.Sublist (done ++ pend) ∧ l.head? = done.head? ∧ l ≠ [] := by
  intro pend
  induction pend with
  | nil =>
    intro done n _ hd _ _
    obtain ⟨p, l, rfl, hp⟩ := hd
    refine ⟨p :: l, ?_, by simp, by simp, by simp, by simp⟩
    cases n <;> simp [simplifyLoop, hp]
  | cons f pend ih =>
    intro done n hn hd hne hs
    obtain ⟨n, rfl⟩ : ∃ m, n = m + 1 := ⟨n - 1, by simp at hn; omega⟩
    obtain ⟨p, l, rfl, hp⟩ := hd
    have hf : f.time ≠ bt := hne f (by simp)
    rw [List.cons_append, simplifyLoop, if_neg hf]
    obtain ⟨b, hb⟩ : ∃ b, (p :: l).getLast? = some b := by
      rw [List.getLast?_eq_some_getLast (by simp)]; exact ⟨_, rfl⟩
    have hlast : (f :: (pend ++ p :: l)).getLast? = some b := by
      rw [← List.cons_append, List.getLast?_append, hb]; rfl
    rw [hlast]
    simp only
    split_ifs with hcond
    · obtain ⟨m, h1, h2, h3, h4, h5⟩ := ih (p :: l ++ [f]) n (by simpa using hn)
        ⟨p, l ++ [f], by simp, hp⟩ (fun q hq => hne q (by simp [hq]))
        (by simpa using hs)
      refine ⟨m, by simpa using h1, fun τ => by rw [h2]; simp, by simpa using h3, by simpa using h4,
        h5⟩
    · push Not at hcond
      have hs' : Sorted (p :: l ++ pend) := by
        refine List.Pairwise.sublist ?_ hs
        exact List.Sublist.append_left (List.sublist_cons_self f pend) _
      obtain ⟨m, h1, h2, h3, h4, h5⟩ := ih (p :: l) n (by simpa using hn) ⟨p, l, rfl, hp⟩
        (fun q hq => hne q (by simp [hq])) hs'
      refine ⟨m, h1, fun τ => ?_, h3.trans
        (List.Sublist.append_left (List.sublist_cons_self f pend) _), h4, h5⟩
      rw [h2]
      simp only [val, cur_append, cur]
      rcases cur pend τ with _ | q
      · simp only [Option.none_or]
        by_cases hft : pl f.time ≤ τ
        · have hbf : b.time ≤ f.time := by
            have := (List.pairwise_append.1 hs).2.2 b (List.mem_of_getLast? hb) f (by simp)
            exact this
          have hcur := val_append_last hb (le_trans (by simpa using hbf) hft)
          simp only [cur] at hcur
          rw [hcur]
          simp only [hft, if_true, Option.some_or, Option.map_some, Option.some.injEq]
          simp only [Sample.valueAt] at hcond ⊢
          rw [← hcond.1, ← hcond.2]
          ring
        · simp [hft]
      · simp

/-- Postcondition of `simplify`, with the shape of the result. -/
theorem simplify_spec' {x : Signal} (h : WF x) :
    ∃ z, simplify x = .ok z ∧ z.beginTime = x.beginTime ∧ z.endTime = x.endTime ∧ WF z ∧
      (∀ τ, τ ≤ pl x.endTime → val z.samples τ = val x.samples τ) ∧
      (∃ b, z.samples.getLast? = some b ∧ b.time = x.endTime) ∧
      ∃ m, m.Sublist x.samples ∧ (z.samples = m ∨ ∃ b, m.getLast? = some b ∧ b.time < x.endTime ∧
        z.samples = m ++ [⟨x.endTime, b.valueAt x.endTime, 0⟩]) := by
  obtain ⟨p, l, hx, hp⟩ := h.exists_cons
  obtain ⟨m, h1, h2, h3, h4, h5⟩ := simplifyLoop_spec x.beginTime l [p] (l.length + 1) (by simp)
    ⟨p, [], rfl, hp⟩ (fun q hq => (h.strict q (by simp [hx, hq])).ne')
    (by rw [List.singleton_append, ← hx]; exact h.sorted)
  simp only [List.singleton_append, ← hx] at h2 h3
  have hsm : Sorted m := List.Pairwise.sublist h3 h.sorted
  have hmem : ∀ q ∈ m, q ∈ x.samples := fun q hq => h3.subset hq
  have hhead : ∀ q, m.head? = some q → q.time = x.beginTime := by
    intro q hq
    rw [h4] at hq
    simp at hq
    rw [← hq, hp]
  have hstrict : ∀ q ∈ m.tail, x.beginTime < q.time := by
    intro q hq
    obtain ⟨a, r, rfl⟩ := List.exists_cons_of_ne_nil h5
    have ha : a = p := by simpa using h4
    rw [hx, ha] at h3
    have : r.Sublist l := List.Sublist.of_cons_cons h3
    refine h.strict q ?_
    rw [hx]
    exact this.subset hq
  obtain ⟨b, hb⟩ : ∃ b, m.getLast? = some b := by
    rw [List.getLast?_eq_some_getLast h5]; exact ⟨_, rfl⟩
  have hbm := hmem b (List.mem_of_getLast? hb)
  by_cases hbe : b.time < x.endTime
  · refine ⟨{ x with samples := m ++ [⟨x.endTime, b.valueAt x.endTime, 0⟩] }, ?_, rfl, rfl, ?_, ?_,
      ?_, m, h3, Or.inr ⟨b, hb, hbe, rfl⟩⟩
    · simp only [simplify, hx, h1, bind, Except.bind, hb, hbe, if_true]
    · refine ⟨⟨by simp, ?_, ?_, ?_⟩, ?_⟩
      · intro q hq
        obtain ⟨a, r, rfl⟩ := List.exists_cons_of_ne_nil h5
        exact hhead q (by simpa using hq)
      · refine List.pairwise_append.2 ⟨hsm, by simp, ?_⟩
        intro q hq r hr
        simp at hr
        rw [hr]
        exact h.le_end q (hmem q hq)
      · intro q hq
        rcases List.mem_append.1 hq with hq | hq
        · exact h.le_end q (hmem q hq)
        · simp at hq; simp [hq]
      · intro q hq
        obtain ⟨a, r, rfl⟩ := List.exists_cons_of_ne_nil h5
        simp only [List.cons_append, List.tail_cons, List.mem_append, List.mem_singleton] at hq
        rcases hq with hq | hq
        · exact hstrict q hq
        · rw [hq]
          have hab : x.beginTime ≤ b.time := by
            have := hhead a (by simp)
            rw [← this]
            rcases List.mem_cons.1 (List.mem_of_getLast? hb) with hba | hba
            · rw [hba]
            · exact (List.pairwise_cons.1 hsm).1 b hba
          exact lt_of_le_of_lt hab hbe
    · intro τ hτ
      rw [← h2 τ]
      simp only [val, cur_append, cur, Option.none_or]
      by_cases he : pl x.endTime ≤ τ
      · have : τ = pl x.endTime := le_antisymm hτ he
        subst this
        rw [val_append_last hb (by simpa using hbe.le)]
        simp [Sample.valueAt]
      · simp [he]
    · exact ⟨⟨x.endTime, b.valueAt x.endTime, 0⟩, by simp, rfl⟩
  · refine ⟨{ x with samples := m }, ?_, rfl, rfl, ⟨⟨h5, hhead, hsm, ?_⟩, hstrict⟩, ?_, ?_,
      m, h3, Or.inl rfl⟩
    · simp only [simplify, hx, h1, bind, Except.bind, hb, hbe, if_false]
    · exact fun q hq => h.le_end q (hmem q hq)
    · intro τ _; exact h2 τ
    · exact ⟨b, hb, le_antisymm (h.le_end b hbm) (not_lt.1 hbe)⟩

/-- Postcondition of `simplify`. -/
theorem simplify_spec {x : Signal} (h : WF x) :
    ∃ z, simplify x = .ok z ∧ z.beginTime = x.beginTime ∧ z.endTime = x.endTime ∧ WF z ∧
      (∀ τ, τ ≤ pl x.endTime → val z.samples τ = val x.samples τ) ∧
      (∃ b, z.samples.getLast? = some b ∧ b.time = x.endTime) := by
  obtain ⟨z, h1, h2, h3, h4, h5, h6, _⟩ := simplify_spec' h
  exact ⟨z, h1, h2, h3, h4, h5, h6⟩

/-! ## Skipping loops -/

theorem skip_spec {e : ℚ} : ∀ {l : List Sample}, RSorted l → (∃ p ∈ l, p.time < e) →
    ∃ l', skip e l = .ok l' ∧ skipGuarded e l = .ok l' ∧ RSorted l' ∧ (∀ p ∈ l', p.time < e) ∧
      (∀ p ∈ l', p ∈ l) ∧
      (∀ p ∈ l, p.time < e → p ∈ l') ∧ ∀ τ, τ ≤ mi e → valR l' τ = valR l τ := by
  intro l
  induction l with
  | nil => intro _ h; obtain ⟨_, h, _⟩ := h; simp at h
  | cons p l ih =>
    intro hs hex
    have hs' := List.pairwise_cons.1 hs
    by_cases hp : e ≤ p.time
    · have hex' : ∃ q ∈ l, q.time < e := by
        obtain ⟨q, hq, hq'⟩ := hex
        rcases List.mem_cons.1 hq with rfl | hq
        · exact absurd hq' (not_lt.2 hp)
        · exact ⟨q, hq, hq'⟩
      obtain ⟨l', h1, h2, h3, h4, h4', h5, h6⟩ := ih hs'.2 hex'
      refine ⟨l', by rw [skip, if_pos hp, h1], ?_, h3, h4, fun q hq => by simp [h4' q hq], ?_, ?_⟩
      · obtain ⟨q, hq, _⟩ := hex'
        cases l with
        | nil => simp at hq
        | cons r l => rw [skipGuarded, if_pos hp, h2]
      · intro q hq hq'
        rcases List.mem_cons.1 hq with rfl | hq
        · exact absurd hq' (not_lt.2 hp)
        · exact h5 q hq hq'
      · intro τ hτ
        rw [h6 τ hτ, valR_cons_of_lt]
        exact lt_of_le_of_lt hτ (by simpa using hp)
    · refine ⟨p :: l, by rw [skip, if_neg hp], ?_, hs, ?_, fun _ h => h, fun _ h _ => h,
        fun _ _ => rfl⟩
      · cases l with
        | nil => simp [skipGuarded]
        | cons r l => rw [skipGuarded, if_neg hp]
      · intro q hq
        rcases List.mem_cons.1 hq with rfl | hq
        · exact not_le.1 hp
        · exact (hs'.1 q hq).trans_lt (not_le.1 hp)

theorem fmax_eq (a b : ℚ) : fmax a b = max a b := by
  unfold fmax
  split_ifs with h
  · exact (max_eq_left h.le).symm
  · exact (max_eq_right (not_lt.1 h)).symm

theorem fmin_eq (a b : ℚ) : fmin a b = min a b := by
  unfold fmin
  split_ifs with h
  · exact (min_eq_left h.le).symm
  · exact (min_eq_right (not_lt.1 h)).symm

/-- Postcondition shared by the pointwise operators: `z` is well formed on `[b,e]` and
denotes `f` there, with the value at `e` equal to the limit from the left. -/
structure IsOn (z : Signal) (b e : ℚ) (f : Pt → ℚ) : Prop where
  begin_eq : z.beginTime = b
  end_eq : z.endTime = e
  wf : WF z
  val : ∀ τ, pl b ≤ τ → τ ≤ mi e → z.v τ = f τ
  last : b < e → z.v (pl e) = z.v (mi e)
  point : b = e → z.v (pl b) = f (pl b)

theorem find?_congr' {l : List Sample} {f g : Sample → Bool} (h : ∀ p ∈ l, f p = g p) :
    l.find? f = l.find? g := by
  induction l with
  | nil => rfl
  | cons p l ih =>
    simp only [List.find?_cons, h p (by simp), ih fun q hq => h q (by simp [hq])]

/-- Conditions under which every sample that a conjunction of `x` (outer) and `y` writes
strictly inside `(b,e)` has an admissible value. -/
structure AndOk (P : ℚ → ℚ → Prop) (x y : Signal) (b e : ℚ) : Prop where
  p1 : ∀ T, b < T → T < e → P T (min (x.v (pl T)) (y.v (pl T)))
  p2 : ∀ j ∈ y.samples, b < j.time → j.time < e → P j.time (min (x.v (mi j.time)) j.value)
  p3 : ∀ l1 i k l2, x.samples = l1 ++ i :: k :: l2 → i.time = k.time → b < i.time → i.time < e →
    (∀ j ∈ y.samples, j.time = i.time → P i.time (min i.value j.value)) ∧
      P i.time (min i.value (y.v (mi i.time)))

theorem AndOk.trivial (x y : Signal) (b e : ℚ) : AndOk (fun _ _ => True) x y b e :=
  ⟨fun _ _ _ => True.intro, fun _ _ _ _ => True.intro,
    fun _ _ _ _ _ _ _ _ => ⟨fun _ _ _ => True.intro, True.intro⟩⟩

theorem skip_suffix {e : ℚ} : ∀ {l l' : List Sample}, skip e l = .ok l' → ∃ pre, l = pre ++ l'
  | [], l', h => by simp [skip] at h
  | p :: l, l', h => by
    rw [skip] at h
    split_ifs at h with hp
    · obtain ⟨pre, hpre⟩ := skip_suffix h
      exact ⟨p :: pre, by rw [hpre]; rfl⟩
    · exact ⟨[], by simpa using h⟩

theorem gh_of {P : ℚ → ℚ → Prop} {x y : Signal} {b e : ℚ} (h : AndOk P x y b e) :
    ∀ (is pre : List Sample) (a : Sample), x.samples.reverse = pre ++ a :: is → a.time < e →
      RSorted (a :: is) → Gh P y.v b y.samples a.time is
  | [], _, _, _, _, _ => True.intro
  | i :: is, pre, a, hx, hae, hs => by
    have hs' := List.pairwise_cons.1 hs
    have hia := hs'.1 i (by simp)
    refine ⟨fun heq hb => ?_, gh_of h is (pre ++ [a]) i (by rw [hx]; simp) (hia.trans_lt hae) hs'.2⟩
    have h3 : x.samples = is.reverse ++ i :: a :: pre.reverse := by
      have := congrArg List.reverse hx
      simpa using this
    have := h.p3 _ _ _ _ h3 heq (by rw [heq]; exact hb) (by rw [heq]; exact hae)
    rwa [heq] at this

/-- The body shared by `compute_and` and `computeAnd`. -/
theorem and_core {P : ℚ → ℚ → Prop} {x y : Signal} (hx : WF0 x) (hy : WF0 y)
    (hlt : max x.beginTime y.beginTime < min x.endTime y.endTime)
    (hP : AndOk P x y (max x.beginTime y.beginTime) (min x.endTime y.endTime)) :
    ∃ is js z, skip (min x.endTime y.endTime) x.samples.reverse = .ok is ∧
      skip (min x.endTime y.endTime) y.samples.reverse = .ok js ∧
      skipGuarded (min x.endTime y.endTime) x.samples.reverse = .ok is ∧
      skipGuarded (min x.endTime y.endTime) y.samples.reverse = .ok js ∧
      ∃ l, partialAnd (max x.beginTime y.beginTime) [] is js (min x.endTime y.endTime) = .ok l ∧
      simplify ⟨l, max x.beginTime y.beginTime, min x.endTime y.endTime⟩ = .ok z ∧
      IsOn z (max x.beginTime y.beginTime) (min x.endTime y.endTime)
        (fun τ => min (x.v τ) (y.v τ)) ∧
      (∀ p ∈ z.samples, max x.beginTime y.beginTime < p.time →
        p.time < min x.endTime y.endTime → P p.time p.value) ∧
      (∀ p ∈ z.samples, p.time = min x.endTime y.endTime →
        p.value = z.v (mi p.time)) := by
  set b := max x.beginTime y.beginTime with hb
  set e := min x.endTime y.endTime with he
  have hbx : x.beginTime ≤ b := le_max_left _ _
  have hby : y.beginTime ≤ b := le_max_right _ _
  have side : ∀ {x : Signal}, WF0 x → x.beginTime ≤ b → ∃ is,
      skip e x.samples.reverse = .ok is ∧ skipGuarded e x.samples.reverse = .ok is ∧
      RSorted is ∧ (∀ p ∈ is, p.time < e) ∧ (∃ p ∈ is, p.time ≤ b) ∧ (∀ p ∈ is, p ∈ x.samples) ∧
      ∀ τ, pl b ≤ τ → τ ≤ mi e → valR is τ = some (x.v τ) := by
    intro x hx hbx
    obtain ⟨p, l, hxs, hp⟩ := hx.exists_cons
    have hpm : p ∈ x.samples.reverse := by simp [hxs]
    have hpb : p.time ≤ b := by rw [hp]; exact hbx
    obtain ⟨is, h1, h2, h3, h4, h4', h5, h6⟩ := skip_spec (rsorted_reverse.2 hx.sorted)
      ⟨p, hpm, hpb.trans_lt hlt⟩
    refine ⟨is, h1, h2, h3, h4, ⟨p, h5 p hpm (hpb.trans_lt hlt), hpb⟩, fun q hq => by simpa using h4' q hq, ?_⟩
    intro τ a c
    rw [h6 τ c, ← val_eq_valR]
    exact hx.val (le_trans (by simpa using hbx) a)
  obtain ⟨is, a1, a2, a3, a4, a5, a5', a6⟩ := side hx hbx
  obtain ⟨js, b1, b2, b3, b4, b5, b5', b6⟩ := side hy hby
  have hG : Gh P y.v b y.samples e is := by
    obtain ⟨pre, hpre⟩ := skip_suffix a1
    cases is with
    | nil => exact True.intro
    | cons i is =>
      exact ⟨fun h => absurd h (a4 i (by simp)).ne, gh_of hP is pre i hpre (a4 i (by simp)) a3⟩
  obtain ⟨p, z', c1, c2, c3, c4⟩ := partialAnd_spec (K := y.samples) hP.p1 is js [] e hlt le_rfl a6 b6 a3 b3
    (fun i hi => ⟨(a4 i hi).le, a4 i hi⟩) (fun j hj => ⟨(b4 j hj).le, b4 j hj⟩) a5 b5
    (Done.nil e _) (fun _ h => by simp at h)
    (fun j hj hbj => hP.p2 j (b5' j hj) hbj (b4 j hj)) b5' hG
  have hwf : WF ⟨p :: z', b, e⟩ := by
    refine ⟨⟨by simp, by simpa using c2, c3.sorted, ?_⟩, ?_⟩
    · intro q hq
      rcases List.mem_cons.1 hq with rfl | hq
      · rw [c2]; exact hlt.le
      · exact (c4 q hq).2.1.le
    · intro q hq
      exact (c4 q (by simpa using hq)).1
  obtain ⟨z, d1, d2, d3, d4, d5, d6, m, d7, d8⟩ := simplify_spec' hwf
  have hsh : ∀ q ∈ z.samples, q ∈ p :: z' ∨ q.time = e ∧ q.value = z.v (mi e) := by
    intro q hq
    rcases d8 with d8 | ⟨r, hr, hre, d8⟩
    · exact Or.inl (d7.subset (d8 ▸ hq))
    · rw [d8] at hq
      rcases List.mem_append.1 hq with hq | hq
      · exact Or.inl (d7.subset hq)
      · simp only [List.mem_singleton] at hq
        subst hq
        refine Or.inr ⟨rfl, ?_⟩
        symm
        apply Signal.v_of_val
        rw [d8]
        simp only [val, cur_append]
        have h1 : cur [(⟨e, r.valueAt e, 0⟩ : Sample)] (mi e) = none := by simp [cur]
        rw [h1, Option.none_or, val_append_last hr (by simpa using hre)]
        simp
  have hlte : ∀ q ∈ p :: z', q.time < e := by
    intro q hq
    rcases List.mem_cons.1 hq with rfl | hq
    · rw [c2]; exact hlt
    · exact (c4 q hq).2.1
  refine ⟨is, js, z, a1, b1, a2, b2, p :: z', c1, d1, ⟨d2, d3, d4, ?_, ?_,
    fun h => absurd h hlt.ne⟩, ?_, ?_⟩
  · intro τ h1 h2
    apply Signal.v_of_val
    rw [d5 τ (h2.trans (by simp))]
    exact c3.den τ (by rw [mi_lt_iff]; exact h1) h2
  · -- the closing sample
    intro _
    unfold Signal.v
    rw [d5 (pl e) le_rfl, d5 (mi e) (by simp)]
    congr 1
    simp only [val]
    have : cur (p :: z') (pl e) = cur (p :: z') (mi e) := by
      rw [cur_eq_find, cur_eq_find]
      apply find?_congr'
      intro q hq
      have hqe : q.time < e := by
        exact hlte q (List.mem_reverse.1 hq)
      simp [hqe, hqe.le]
    rw [this]
    rfl
  · intro q hq h1 h2
    rcases hsh q hq with h | h
    · rcases List.mem_cons.1 h with rfl | h
      · exact absurd c2 h1.ne'
      · exact (c4 q h).2.2
    · exact absurd h.1 h2.ne
  · intro q hq h1
    rcases hsh q hq with h | h
    · exact absurd h1 (hlte q h).ne
    · rw [h1]; exact h.2

theorem computeAndM_spec_lt' {P : ℚ → ℚ → Prop} {x y : Signal} (hx : WF0 x) (hy : WF0 y)
    (hlt : max x.beginTime y.beginTime < min x.endTime y.endTime)
    (hP : AndOk P x y (max x.beginTime y.beginTime) (min x.endTime y.endTime)) :
    ∃ z, computeAndM x y = .ok z ∧
      IsOn z (max x.beginTime y.beginTime) (min x.endTime y.endTime)
        (fun τ => min (x.v τ) (y.v τ)) ∧
      (∀ p ∈ z.samples, max x.beginTime y.beginTime < p.time →
        p.time < min x.endTime y.endTime → P p.time p.value) ∧
      (∀ p ∈ z.samples, p.time = min x.endTime y.endTime →
        p.value = z.v (mi p.time)) := by
  obtain ⟨is, js, z, _, _, h1, h2, l, h3, h4, h5⟩ := and_core hx hy hlt hP
  refine ⟨z, ?_, h5⟩
  simp only [computeAndM, fmax_eq, fmin_eq, h1, h2, h3, bind, Except.bind, h4]

theorem computeAndM_spec_lt {x y : Signal} (hx : WF0 x) (hy : WF0 y)
    (hlt : max x.beginTime y.beginTime < min x.endTime y.endTime) :
    ∃ z, computeAndM x y = .ok z ∧
      IsOn z (max x.beginTime y.beginTime) (min x.endTime y.endTime)
        (fun τ => min (x.v τ) (y.v τ)) := by
  obtain ⟨z, h1, h2, _⟩ := computeAndM_spec_lt' hx hy hlt (AndOk.trivial _ _ _ _)
  exact ⟨z, h1, h2⟩

theorem skipGuarded_all {e : ℚ} : ∀ (l : List Sample) (p : Sample),
    (∀ q ∈ l, e ≤ q.time) → skipGuarded e (l ++ [p]) = .ok [p] := by
  intro l
  induction l with
  | nil => intro p _; rfl
  | cons q l ih =>
    intro p h
    have := ih p (fun r hr => h r (by simp [hr]))
    cases l with
    | nil => simp [skipGuarded, h q (by simp)]
    | cons r l =>
      simp only [List.cons_append] at this ⊢
      rw [skipGuarded, if_pos (h q (by simp)), this]

theorem WF0.skip_begin {x : Signal} (h : WF0 x) {p : Sample} {l : List Sample}
    (hx : x.samples = p :: l) : skipGuarded x.beginTime x.samples.reverse = .ok [p] := by
  rw [hx, List.reverse_cons]
  apply skipGuarded_all
  intro q hq
  have hs := h.sorted
  rw [hx] at hs
  rw [← h.head p (by simp [hx])]
  exact (List.pairwise_cons.1 hs).1 q (by simpa using hq)

/-- Conjunction when the common domain is a single point. -/
theorem computeAndM_spec_eq0 {x y : Signal} (hx : WF0 x) (hy : WF0 y)
    (hvx : ∀ p, x.samples.head? = some p → x.v (pl x.beginTime) = p.value)
    (hvy : ∀ p, y.samples.head? = some p → y.v (pl y.beginTime) = p.value)
    (hb : x.beginTime = y.beginTime) (he : min x.endTime y.endTime = x.beginTime) :
    ∃ z, computeAndM x y = .ok z ∧
      IsOn z x.beginTime x.beginTime (fun τ => min (x.v τ) (y.v τ)) := by
  obtain ⟨p, l, hxs, hp⟩ := hx.exists_cons
  obtain ⟨q, m, hys, hq⟩ := hy.exists_cons
  have hpq : p.time = q.time := by rw [hp, hq, hb]
  have h1 := hx.skip_begin hxs
  have h2 := hy.skip_begin hys
  have hpv : p.valueAt p.time = p.value := valueAt_self p
  have hqv : q.valueAt p.time = q.value := by rw [hpq]; exact valueAt_self q
  have key : ∃ r, segmentAndLast p [] p.time false q = .ok [r] ∧ r.time = p.time ∧
      r.value = min p.value q.value := by
    simp only [segmentAndLast, hpv, hqv]
    rcases lt_trichotomy p.value q.value with h | h | h
    · exact ⟨p, by simp [h, not_lt.2 h.le], rfl, (min_eq_left h.le).symm⟩
    · exact ⟨p, by simp [← h], rfl, (min_eq_left h.le).symm⟩
    · exact ⟨⟨p.time, q.value, q.derivative⟩, by simp [not_lt.2 h.le, h.ne'], rfl,
        (min_eq_right h.le).symm⟩
  obtain ⟨r, k1, k2, k3⟩ := key
  have hwf : WF ⟨[r], x.beginTime, x.beginTime⟩ :=
    ⟨⟨by simp, by simp [k2, hp], by simp [Sorted], by simp [k2, hp]⟩, by simp⟩
  obtain ⟨z, d1, d2, d3, d4, d5, _⟩ := simplify_spec hwf
  refine ⟨z, ?_, d2, d3, d4, ?_, fun h => absurd h (lt_irrefl _), ?_⟩
  · have hpa : partialAnd x.beginTime [] [p] [q] x.beginTime = .ok [r] := by
      simp only [partialAnd, hp, lt_irrefl, if_false, if_true, segmentAnd, segmentAndLoop,
        ← hb, hq, bind, Except.bind]
      rw [hp] at k1
      simp only [k1]
    simp only [computeAndM, fmax_eq, fmin_eq, ← hb, max_self, he, h1, bind, Except.bind]
    rw [hb, h2]
    simp only [← hb, hpa, d1]
  · intro τ a b
    have := a.trans b
    simp at this
  · intro _
    rw [hvx p (by simp [hxs])]
    have : y.v (pl x.beginTime) = q.value := by rw [hb]; exact hvy q (by simp [hys])
    rw [this, ← k3]
    apply Signal.v_of_val
    rw [d5 _ le_rfl]
    rw [val_cons_of_lt (by simp) (by simp [k2, hp])]
    rw [pl_time, ← hp, ← k2, valueAt_self]

theorem computeAndM_spec_eq {x y : Signal} (hx : WF x) (hy : WF y)
    (hb : x.beginTime = y.beginTime) (he : min x.endTime y.endTime = x.beginTime) :
    ∃ z, computeAndM x y = .ok z ∧
      IsOn z x.beginTime x.beginTime (fun τ => min (x.v τ) (y.v τ)) := by
  have key : ∀ {x : Signal}, WF x → ∀ p, x.samples.head? = some p → x.v (pl x.beginTime) = p.value := by
    intro x hx p hp
    obtain ⟨q, l, hl, _⟩ := hx.exists_cons
    rw [hl] at hp
    simp only [List.head?_cons, Option.some.injEq] at hp
    subst hp
    exact hx.v_begin hl
  exact computeAndM_spec_eq0 hx.toWF0 hy.toWF0 (key hx) (key hy) hb he

theorem computeAnd_spec' {P : ℚ → ℚ → Prop} {x y : Signal} (hx : WF0 x) (hy : WF0 y)
    (hlt : max x.beginTime y.beginTime < min x.endTime y.endTime)
    (hP : AndOk P x y (max x.beginTime y.beginTime) (min x.endTime y.endTime)) :
    ∃ z, computeAnd x y = .ok z ∧
      IsOn z (max x.beginTime y.beginTime) (min x.endTime y.endTime)
        (fun τ => min (x.v τ) (y.v τ)) ∧
      (∀ p ∈ z.samples, max x.beginTime y.beginTime < p.time →
        p.time < min x.endTime y.endTime → P p.time p.value) ∧
      (∀ p ∈ z.samples, p.time = min x.endTime y.endTime →
        p.value = z.v (mi p.time)) := by
  obtain ⟨is, js, z, h1, h2, _, _, l, h3, h4, h5⟩ := and_core hx hy hlt hP
  refine ⟨z, ?_, h5⟩
  simp only [computeAnd, fmax_eq, fmin_eq, h1, h2, h3, bind, Except.bind, h4]

theorem computeAnd_spec {x y : Signal} (hx : WF0 x) (hy : WF0 y)
    (hlt : max x.beginTime y.beginTime < min x.endTime y.endTime) :
    ∃ z, computeAnd x y = .ok z ∧
      IsOn z (max x.beginTime y.beginTime) (min x.endTime y.endTime)
        (fun τ => min (x.v τ) (y.v τ)) := by
  obtain ⟨z, h1, h2, _⟩ := computeAnd_spec' hx hy hlt (AndOk.trivial _ _ _ _)
  exact ⟨z, h1, h2⟩

end STLRom
