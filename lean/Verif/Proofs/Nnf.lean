import Verif.Spec.Nnf
import Verif.Spec.Stl
import Verif.Proofs.Timed
import Verif.Proofs.ExprEval
import Verif.Proofs.Exact

/-! # The first run on a formula and on its negation normal form -/

namespace STLRom
open Signal Spec

theorem front_not (z : Signal) : (computeNot z).front = (z.front).map Sample.neg := by
  unfold front
  rw [computeNot_samples]
  cases z.samples <;> rfl

theorem trimFront_not (s : ℚ) : ∀ (l : List Sample) (f : Sample),
    trimFront s f.neg (negs l) = ((trimFront s f l).1.neg, negs (trimFront s f l).2) := by
  intro l
  induction l with
  | nil => intro f; rfl
  | cons p l ih =>
    intro f
    simp only [List.map_cons, trimFront, Sample.neg_time]
    split_ifs
    · exact ih p
    · rfl

theorem trimBack_not (t : ℚ) (l : List Sample) : trimBack t (negs l) = negs (trimBack t l) := by
  unfold trimBack
  rw [← List.map_reverse]
  generalize l.reverse = r
  rw [show negs (List.dropWhile (fun p => decide (t < p.time)) r).reverse =
    (negs (List.dropWhile (fun p => decide (t < p.time)) r)).reverse by simp [negs]]
  congr 1
  induction r with
  | nil => rfl
  | cons p r ih =>
    simp only [List.map_cons, List.dropWhile_cons, Sample.neg_time]
    split_ifs
    · exact ih
    · rfl

theorem resizeFront_not (x : Signal) (s : ℚ) :
    resizeFront (computeNot x) s = (resizeFront x s).map computeNot := by
  unfold resizeFront
  have hb : (computeNot x).beginTime = x.beginTime := rfl
  have he : (computeNot x).endTime = x.endTime := rfl
  rw [hb, he, computeNot_samples]
  by_cases h : s < x.beginTime
  · rw [if_pos h, if_pos h]
    cases x.samples with
    | nil => rfl
    | cons p l => simp [Except.map, computeNot_eq, Sample.neg]
  · rw [if_neg h, if_neg h]
    have h0 : Sample.zero = Sample.zero.neg := by simp [Sample.zero, Sample.neg]
    have := trimFront_not s x.samples Sample.zero
    rw [← h0] at this
    rw [this]
    rcases trimFront s Sample.zero x.samples with ⟨f, _ | ⟨p, r⟩⟩
    · simp [Except.map, computeNot_eq, Sample.neg, Sample.valueAt]; ring
    · simp only [List.map_cons, Sample.neg_time]
      split_ifs
      · simp [Except.map, computeNot_eq, Sample.neg, Sample.valueAt]; ring
      · simp [Except.map, computeNot_eq]

theorem resizeBack_not (x : Signal) (s t : ℚ) :
    resizeBack (computeNot x) s t 0 = (resizeBack x s t 0).map computeNot := by
  unfold resizeBack
  have he : (computeNot x).endTime = x.endTime := rfl
  rw [he, computeNot_samples]
  split_ifs with h
  · rw [List.getLast?_map]
    cases x.samples.getLast? with
    | none => rfl
    | some b =>
      simp only [Option.map_some, Sample.neg_value, Sample.neg_derivative, ne_eq, neg_eq_zero]
      split_ifs
      · simp [Except.map, bind, Except.bind, computeNot_eq, Sample.neg]
      · by_cases hx : x.samples = [] <;>
          simp [Except.map, bind, Except.bind, computeNot_eq, Sample.neg, hx]
  · rw [trimBack_not]
    by_cases hx : trimBack t x.samples = [] <;>
      simp [Except.map, bind, Except.bind, computeNot_eq, Sample.neg, hx]

/-- Cutting and padding with 0 commutes with negation. -/
theorem resize_not (x : Signal) (s t : ℚ) :
    resize (computeNot x) s t 0 = (resize x s t 0).map computeNot := by
  unfold resize
  split_ifs
  · rfl
  all_goals
    rw [resizeFront_not]
    cases resizeFront x s with
    | error f => rfl
    | ok y => exact resizeBack_not y s _

theorem appendSample_not (ip : Interpol) (x : Signal) (t v d : ℚ) :
    appendSample ip (computeNot x) t (-v) (-d) = (appendSample ip x t v d).map computeNot := by
  unfold appendSample
  have hb : (computeNot x).beginTime = x.beginTime := rfl
  have he : (computeNot x).endTime = x.endTime := rfl
  rw [hb, he, computeNot_samples]
  simp only [ne_eq, List.map_eq_nil_iff]
  by_cases h : t ≤ x.endTime ∧ ¬x.samples = []
  · rw [if_pos h, if_pos h]
    rfl
  · rw [if_neg h, if_neg h]
    cases ip with
    | PREVIOUS =>
      by_cases hx : x.samples = [] <;> simp [hx, Except.map, computeNot_eq, Sample.neg]
    | LINEAR =>
      simp only [List.getLast?_map]
      cases hl : x.samples.getLast? with
      | none => simp [Except.map, computeNot_eq, Sample.neg]
      | some b =>
        simp only [Option.map_some, Sample.neg_value, Sample.neg_time]
        unfold qdiv
        split_ifs
        · rfl
        · simp only [bind, Except.bind, Except.map, setBackDerivative, List.getLast?_map, hl,
            Option.map_some, computeNot_eq, List.map_append, List.map_cons, List.map_nil,
            List.map_dropLast, Sample.neg]
          congr 7
          ring

theorem atomLoop_not (ip : Interpol) (k : Cmp) : ∀ (ps qs : List Sample) (z : Signal),
    Tr.atomLoop ip (opposite k) (computeNot z) ps qs = (Tr.atomLoop ip k z ps qs).map computeNot := by
  intro ps
  induction ps with
  | nil => intro qs z; rfl
  | cons p ps ih =>
    intro qs z
    cases qs with
    | nil => rfl
    | cons q qs =>
      have : ∀ (v d v' d' : ℚ), v' = -v → d' = -d →
          ((appendSample ip (computeNot z) p.time v' d').bind fun y =>
            Tr.atomLoop ip (opposite k) y ps qs) =
          ((appendSample ip z p.time v d).bind fun y => Tr.atomLoop ip k y ps qs).map computeNot := by
        rintro v d _ _ rfl rfl
        rw [appendSample_not]
        cases appendSample ip z p.time v d with
        | error f => rfl
        | ok y => exact ih qs y
      cases k <;> exact this _ _ _ _ (by ring) (by ring)

theorem atomRob_not {env : Env} (hs : env.sem = .SPACE) (k : Cmp) (zl zr : Signal) :
    Tr.atomRob env (opposite k) .empty zl zr = (Tr.atomRob env k .empty zl zr).map computeNot := by
  unfold Tr.atomRob
  rw [hs]
  have := atomLoop_not env.ip k zl.samples zr.samples .empty
  rw [show computeNot Signal.empty = Signal.empty from rfl] at this
  rw [this]
  cases Tr.atomLoop env.ip k .empty zl.samples zr.samples <;> rfl

theorem andRob_not (x y : Signal) :
    Tr.andRob (computeNot x) (computeNot y) = (Tr.orRob x y).map computeNot := by
  unfold Tr.andRob Tr.orRob
  exact computeAndM_not { x with endTime := max x.endTime y.endTime }
    { y with endTime := max x.endTime y.endTime }

theorem orRob_not (x y : Signal) :
    Tr.orRob (computeNot x) (computeNot y) = (Tr.andRob x y).map computeNot := by
  have := andRob_not (computeNot x) (computeNot y)
  rw [computeNot_computeNot, computeNot_computeNot] at this
  rw [this]
  cases Tr.orRob (computeNot x) (computeNot y) <;> simp [Except.map]

/-- Shortening a non-empty signal never fails. -/
theorem resize_nonempty (x : Signal) (s t v : ℚ) (hx : x.samples ≠ []) :
    ∃ y, resize x s t v = .ok y := by
  unfold resize
  split_ifs
  · exact ⟨_, rfl⟩
  all_goals
    have hf : ∃ y, resizeFront x s = .ok y ∧ y.samples ≠ [] := by
      unfold resizeFront
      by_cases hb : s < x.beginTime
      · rw [if_pos hb]
        cases h : x.samples with
        | nil => exact absurd h hx
        | cons p l => exact ⟨_, rfl, by simp⟩
      · rw [if_neg hb]
        rcases trimFront s Sample.zero x.samples with ⟨f, _ | ⟨p, r⟩⟩
        · exact ⟨_, rfl, by simp⟩
        · simp only
          split_ifs <;> exact ⟨_, rfl, by simp⟩
    obtain ⟨y, hy, hn⟩ := hf
    simp only [hy, bind, Except.bind, resizeBack]
    split_ifs
    · cases h : y.samples.getLast? with
      | none => exact absurd (List.getLast?_eq_none_iff.1 h) hn
      | some b =>
        simp only
        split_ifs <;> exact ⟨_, rfl⟩
    · exact ⟨_, rfl⟩

/-- What `ev` computes, without the cut of its child. -/
def evOnly (B : ℚ) (s : St) (a b : ℚ) (zc : Signal) : M Signal := do
  let z ← computeTimedEventually B s.z zc a b
  z.resize s.start (max s.start (min z.endTime s.stop)) 0

theorem evRob_only (B : ℚ) (s : St) (a b : ℚ) (zc : Signal) (h : zc.samples ≠ []) :
    (Tr.evRob B s a b zc).map Prod.fst = evOnly B s a b zc := by
  unfold Tr.evRob evOnly
  cases computeTimedEventually B s.z zc a b with
  | error f => rfl
  | ok z =>
    obtain ⟨y, hy⟩ := resize_nonempty zc (min z.endTime s.stop - b) zc.endTime 0 h
    simp only [bind, Except.bind, hy]
    cases z.resize s.start (max s.start (min z.endTime s.stop)) 0 <;> rfl

theorem alwRob_not (B : ℚ) (s : St) (a b : ℚ) (zc : Signal) :
    Tr.alwRob B s a b (computeNot zc) = (evOnly B s a b zc).map computeNot := by
  unfold Tr.alwRob evOnly
  rw [computeTimedGlobally_not]
  cases computeTimedEventually B s.z zc a b with
  | error f => rfl
  | ok z => exact resize_not z _ _

theorem evOnly_not (B : ℚ) (s : St) (a b : ℚ) (zc : Signal) :
    evOnly B s a b (computeNot zc) = (Tr.alwRob B s a b zc).map computeNot := by
  have := alwRob_not B s a b (computeNot zc)
  rw [computeNot_computeNot] at this
  rw [this]
  cases evOnly B s a b (computeNot zc) <;> simp [Except.map]

/-- The signal the first run leaves at the root. -/
def zOf (env : Env) (T : Tr) : M Signal := (Tr.computeRob env T).map fun p => p.1.st.z

/-- Fails on an empty signal, as reading `front()` does. -/
def chk (z : Signal) : M Signal := (z.front).map fun _ => z

theorem chk_not (z : Signal) : chk (computeNot z) = (chk z).map computeNot := by
  unfold chk
  rw [front_not]
  cases z.front <;> rfl

theorem chk_ok {z y : Signal} (h : chk z = .ok y) : y = z ∧ z.samples ≠ [] := by
  unfold chk front at h
  cases hz : z.samples with
  | nil => rw [hz] at h; simp [Except.map] at h
  | cons p l => rw [hz] at h; simp only [Except.map, Except.ok.injEq] at h; exact ⟨h.symm, by simp⟩

theorem zOf_atom (env : Env) (s : St) (k : Cmp) (l r : Tr) : zOf env (.atom s k l r) =
    (zOf env l).bind fun x => (zOf env r).bind fun y =>
      (Tr.atomRob env k s.z x y).bind chk := by
  simp only [zOf, Tr.computeRob, bind]
  rcases Tr.computeRob env l with _ | ⟨l', _⟩
  · rfl
  rcases Tr.computeRob env r with _ | ⟨r', _⟩
  · rfl
  simp only [Except.map, Except.bind]
  cases Tr.atomRob env k s.z l'.st.z r'.st.z with
  | error => rfl
  | ok z => simp only [chk, Except.map]; cases z.front <;> rfl

theorem zOf_not (env : Env) (s : St) (c : Tr) : zOf env (.not s c) =
    (zOf env c).bind fun x => chk (computeNot x) := by
  simp only [zOf, Tr.computeRob, bind]
  rcases Tr.computeRob env c with _ | ⟨c', _⟩
  · rfl
  simp only [Except.map, Except.bind, chk]
  cases (computeNot c'.st.z).front <;> rfl

theorem zOf_and (env : Env) (s : St) (l r : Tr) : zOf env (.and s l r) =
    (zOf env l).bind fun x => (zOf env r).bind fun y => (Tr.andRob x y).bind chk := by
  simp only [zOf, Tr.computeRob, bind]
  rcases Tr.computeRob env l with _ | ⟨l', _⟩
  · rfl
  rcases Tr.computeRob env r with _ | ⟨r', _⟩
  · rfl
  simp only [Except.map, Except.bind]
  cases Tr.andRob l'.st.z r'.st.z with
  | error => rfl
  | ok z => simp only [chk, Except.map]; cases z.front <;> rfl

theorem zOf_or (env : Env) (s : St) (l r : Tr) : zOf env (.or s l r) =
    (zOf env l).bind fun x => (zOf env r).bind fun y => (Tr.orRob x y).bind chk := by
  simp only [zOf, Tr.computeRob, bind]
  rcases Tr.computeRob env l with _ | ⟨l', _⟩
  · rfl
  rcases Tr.computeRob env r with _ | ⟨r', _⟩
  · rfl
  simp only [Except.map, Except.bind]
  cases Tr.orRob l'.st.z r'.st.z with
  | error => rfl
  | ok z => simp only [chk, Except.map]; cases z.front <;> rfl

theorem zOf_implies (env : Env) (s : St) (l r : Tr) : zOf env (.implies s l r) =
    (zOf env l).bind fun x => (zOf env r).bind fun y => (computeImpliesM x y).bind chk := by
  simp only [zOf, Tr.computeRob, bind]
  rcases Tr.computeRob env l with _ | ⟨l', _⟩
  · rfl
  rcases Tr.computeRob env r with _ | ⟨r', _⟩
  · rfl
  simp only [Except.map, Except.bind]
  cases computeImpliesM l'.st.z r'.st.z with
  | error => rfl
  | ok z => simp only [chk, Except.map]; cases z.front <;> rfl

theorem zOf_untl (env : Env) (s : St) (l r : Tr) (I : Ival) : zOf env (.untl s l I r) =
    (zOf env l).bind fun x => (zOf env r).bind fun y =>
      (Tr.untilRob env.B s (Tr.ivA env.params I) (Tr.ivB env.params I) x y).bind chk := by
  simp only [zOf, Tr.computeRob, bind]
  rcases Tr.computeRob env l with _ | ⟨l', _⟩
  · rfl
  rcases Tr.computeRob env r with _ | ⟨r', _⟩
  · rfl
  simp only [Except.map, Except.bind]
  cases Tr.untilRob env.B s (Tr.ivA env.params I) (Tr.ivB env.params I) l'.st.z r'.st.z with
  | error => rfl
  | ok z => simp only [chk, Except.map]; cases z.front <;> rfl

theorem zOf_alw (env : Env) (s : St) (c : Tr) (I : Ival) : zOf env (.alw s I c) =
    (zOf env c).bind fun x =>
      (Tr.alwRob env.B s (Tr.ivA env.params I) (Tr.ivB env.params I) x).bind chk := by
  simp only [zOf, Tr.computeRob, bind]
  rcases Tr.computeRob env c with _ | ⟨c', _⟩
  · rfl
  simp only [Except.map, Except.bind]
  cases Tr.alwRob env.B s (Tr.ivA env.params I) (Tr.ivB env.params I) c'.st.z with
  | error => rfl
  | ok z => simp only [chk, Except.map]; cases z.front <;> rfl

theorem zOf_ev' (env : Env) (s : St) (c : Tr) (I : Ival) : zOf env (.ev s I c) =
    (zOf env c).bind fun x =>
      ((Tr.evRob env.B s (Tr.ivA env.params I) (Tr.ivB env.params I) x).map Prod.fst).bind chk := by
  simp only [zOf, Tr.computeRob, bind]
  rcases Tr.computeRob env c with _ | ⟨c', _⟩
  · rfl
  simp only [Except.map, Except.bind]
  cases Tr.evRob env.B s (Tr.ivA env.params I) (Tr.ivB env.params I) c'.st.z with
  | error => rfl
  | ok z => simp only [chk, Except.map]; cases z.1.front <;> rfl

theorem bind_chk {x : M Signal} {z : Signal} (h : x.bind chk = .ok z) : z.samples ≠ [] := by
  cases x with
  | error => simp [Except.bind] at h
  | ok y => obtain ⟨rfl, h2⟩ := chk_ok h; exact h2

theorem zOf_ne (env : Env) : ∀ (T : Tr), IsStl T → ∀ z, zOf env T = .ok z → z.samples ≠ [] := by
  have key : ∀ (a : M Signal) (f : Signal → M Signal), (∀ x z, f x = .ok z → z.samples ≠ []) →
      ∀ z, a.bind f = .ok z → z.samples ≠ [] := by
    intro a f hf z h
    cases a with
    | error => simp [Except.bind] at h
    | ok x => exact hf x z h
  intro T hT
  cases T with
  | sig | const | abs | plus | minus | mult => exact hT.elim
  | atom =>
    rw [zOf_atom]
    exact key _ _ fun _ => key _ _ fun _ z => bind_chk
  | not =>
    rw [zOf_not]
    exact key _ _ fun _ _ h => by obtain ⟨h1, h2⟩ := chk_ok h; rw [h1]; exact h2
  | and => rw [zOf_and]; exact key _ _ fun _ => key _ _ fun _ z => bind_chk
  | or => rw [zOf_or]; exact key _ _ fun _ => key _ _ fun _ z => bind_chk
  | implies => rw [zOf_implies]; exact key _ _ fun _ => key _ _ fun _ z => bind_chk
  | untl => rw [zOf_untl]; exact key _ _ fun _ => key _ _ fun _ z => bind_chk
  | alw => rw [zOf_alw]; exact key _ _ fun _ z => bind_chk
  | ev => rw [zOf_ev']; exact key _ _ fun _ z => bind_chk

theorem zOf_ev (env : Env) (s : St) (c : Tr) (I : Ival) (hc : IsStl c) : zOf env (.ev s I c) =
    (zOf env c).bind fun x =>
      (evOnly env.B s (Tr.ivA env.params I) (Tr.ivB env.params I) x).bind chk := by
  rw [zOf_ev']
  cases h : zOf env c with
  | error => rfl
  | ok x =>
    simp only [Except.bind]
    rw [evRob_only _ _ _ _ _ (zOf_ne env c hc x h)]

/-- Negated or not. -/
def sgn : Bool → Signal → Signal
  | false, z => z
  | true, z => computeNot z

theorem isStl_nnf : ∀ (T : Tr) (b : Bool), IsStl T → IsStl (nnf b T) := by
  intro T
  induction T with
  | sig | const | abs | plus | minus | mult => intro b h; exact h.elim
  | atom => intro b h; cases b <;> exact h
  | not _ c ih => intro b h; rw [nnf]; exact ih _ h
  | ev _ _ c ih | alw _ _ c ih => intro b h; cases b <;> exact ih _ h
  | and _ l r ih1 ih2 | or _ l r ih1 ih2 | implies _ l r ih1 ih2 | untl _ l _ r ih1 ih2 =>
    intro b h; cases b <;> exact ⟨ih1 _ h.1, ih2 _ h.2⟩

/-- The comparisons have not been evaluated yet. -/
def AtomsNew : Tr → Prop
  | .atom s _ _ _ => s.z = .empty
  | .not _ c | .ev _ _ c | .alw _ _ c => AtomsNew c
  | .and _ l r | .or _ l r | .implies _ l r | .untl _ l _ r => AtomsNew l ∧ AtomsNew r
  | _ => True

theorem atomsNew_fresh {P : Assoc ℚ} : ∀ (T : Tr) (s e : ℚ), Fresh P s e T → AtomsNew T := by
  intro T
  induction T with
  | sig | const | abs | plus | minus | mult => intros; trivial
  | atom => intro s e h; exact h.1.2.2.1
  | not _ c ih | ev _ _ c ih | alw _ _ c ih => intro s e h; exact ih _ _ h.2
  | and _ l r ih1 ih2 | or _ l r ih1 ih2 | implies _ l r ih1 ih2 | untl _ l _ r ih1 ih2 =>
    intro s e h; exact ⟨ih1 _ _ h.2.1, ih2 _ _ h.2.2⟩

/-- The first run gives the same signal for a formula and its negation normal form, and the
negated signal for the normal form of the negation; faults are the same too. -/
theorem zOf_nnf {env : Env} (hs : env.sem = .SPACE) : ∀ (T : Tr) (b : Bool), IsStl T → AtomsNew T →
    zOf env (nnf b T) = (zOf env T).map (sgn b) := by
  have m0 : ∀ x : M Signal, x.map (sgn false) = x := fun x => by cases x <;> rfl
  -- rewriting under the binds
  have bin : ∀ (b b' : Bool) (x y : M Signal) (f g : Signal → Signal → M Signal),
      (∀ u v, f (sgn b u) (sgn b v) = (g u v).map (sgn b')) →
      ((x.map (sgn b)).bind fun u => (y.map (sgn b)).bind fun v => (f u v).bind chk) =
        (x.bind fun u => y.bind fun v => (g u v).bind chk).map (sgn b') := by
    intro b b' x y f g h
    cases x with
    | error => rfl
    | ok u =>
      cases y with
      | error => rfl
      | ok v =>
        simp only [Except.map, Except.bind, h]
        cases g u v with
        | error => rfl
        | ok z => cases b'
                  · simp only [sgn]; cases chk z <;> rfl
                  · exact chk_not z
  have una : ∀ (b b' : Bool) (x : M Signal) (f g : Signal → M Signal),
      (∀ u, f (sgn b u) = (g u).map (sgn b')) →
      ((x.map (sgn b)).bind fun u => (f u).bind chk) =
        (x.bind fun u => (g u).bind chk).map (sgn b') := by
    intro b b' x f g h
    cases x with
    | error => rfl
    | ok u =>
      simp only [Except.map, Except.bind, h]
      cases g u with
      | error => rfl
      | ok z => cases b'
                · simp only [sgn]; cases chk z <;> rfl
                · exact chk_not z
  have neg : ∀ (st : St) (T : Tr), IsStl T →
      zOf env (.not st T) = (zOf env T).map (sgn true) := by
    intro st T hT
    rw [zOf_not]
    cases h : zOf env T with
    | error => rfl
    | ok x =>
      have := zOf_ne env T hT x h
      simp only [Except.bind, Except.map, sgn, chk, front, computeNot_samples]
      cases hx : x.samples with
      | nil => exact absurd hx this
      | cons => rfl
  intro T
  induction T with
  | sig | const | abs | plus | minus | mult => intro b h; exact h.elim
  | atom s k l r =>
    intro b h hn
    cases b with
    | false => exact (m0 _).symm
    | true =>
      simp only [nnf, zOf_atom, show s.z = .empty from hn]
      have := bin false true (zOf env l) (zOf env r) (Tr.atomRob env (opposite k) .empty)
        (Tr.atomRob env k .empty) (fun u v => atomRob_not hs k u v)
      rw [m0, m0] at this
      exact this
  | not s c ih =>
    intro b h hn
    rw [nnf, ih _ h hn, neg s c h]
    cases zOf env c with
    | error => rfl
    | ok x => cases b <;> simp [Except.map, sgn]
  | and s l r ih1 ih2 =>
    intro b h hn
    cases b with
    | false => simp only [nnf, zOf_and, ih1 _ h.1 hn.1, ih2 _ h.2 hn.2, m0]
    | true =>
      simp only [nnf, zOf_and, zOf_or, ih1 _ h.1 hn.1, ih2 _ h.2 hn.2]
      exact bin true true _ _ _ _ fun u v => orRob_not u v
  | or s l r ih1 ih2 =>
    intro b h hn
    cases b with
    | false => simp only [nnf, zOf_or, ih1 _ h.1 hn.1, ih2 _ h.2 hn.2, m0]
    | true =>
      simp only [nnf, zOf_and, zOf_or, ih1 _ h.1 hn.1, ih2 _ h.2 hn.2]
      exact bin true true _ _ _ _ fun u v => andRob_not u v
  | implies s l r ih1 ih2 =>
    intro b h hn
    have e : zOf env (.implies s (nnf false l) (nnf false r)) = zOf env (.implies s l r) := by
      simp only [zOf_implies, ih1 _ h.1 hn.1, ih2 _ h.2 hn.2, m0]
    cases b with
    | false => rw [m0]; exact e
    | true =>
      rw [nnf, neg s (.implies s (nnf false l) (nnf false r)) ⟨isStl_nnf l _ h.1, isStl_nnf r _ h.2⟩, e]
  | untl s l I r ih1 ih2 =>
    intro b h hn
    have e : zOf env (.untl s (nnf false l) I (nnf false r)) = zOf env (.untl s l I r) := by
      simp only [zOf_untl, ih1 _ h.1 hn.1, ih2 _ h.2 hn.2, m0]
    cases b with
    | false => rw [m0]; exact e
    | true =>
      rw [nnf, neg s (.untl s (nnf false l) I (nnf false r)) ⟨isStl_nnf l _ h.1, isStl_nnf r _ h.2⟩, e]
  | ev s I c ih =>
    intro b h hn
    cases b with
    | false => simp only [nnf, zOf_ev env s c I h, zOf_ev _ _ _ _ (isStl_nnf c false h), ih _ h hn, m0]
    | true =>
      simp only [nnf, zOf_ev env s c I h, zOf_alw, ih _ h hn]
      exact una true true _ _ _ fun u => alwRob_not _ _ _ _ u
  | alw s I c ih =>
    intro b h hn
    cases b with
    | false => simp only [nnf, zOf_alw, ih _ h hn, m0]
    | true =>
      simp only [nnf, zOf_ev _ _ _ _ (isStl_nnf c true h), zOf_alw, ih _ h hn]
      exact una true true _ _ _ fun u => evOnly_not _ _ _ _ u

/-- The number returned is the value of the first sample. -/
theorem rob_front {env : Env} {T T' : Tr} {v : ℚ} (hT : IsStl T)
    (h : Tr.computeRob env T = .ok (T', v)) : ∃ p, T'.st.z.front = .ok p ∧ p.value = v := by
  have fin : ∀ (z : Signal) (k : Sample → Tr × ℚ), (∀ p, (k p).1.st.z = z ∧ (k p).2 = p.value) →
      (z.front).bind (fun p => Except.ok (k p)) = Except.ok (ε := Fault) (T', v) →
      ∃ p, T'.st.z.front = .ok p ∧ p.value = v := by
    intro z k hk h
    cases hz : z.front with
    | error => rw [hz] at h; simp [Except.bind] at h
    | ok p =>
      rw [hz] at h
      simp only [Except.bind, Except.ok.injEq] at h
      have := hk p
      rw [h] at this
      exact ⟨p, by rw [this.1, hz], this.2.symm⟩
  cases T with
  | sig | const | abs | plus | minus | mult => exact hT.elim
  | atom s k l r =>
    simp only [Tr.computeRob, bind] at h
    rcases hl : Tr.computeRob env l with _ | ⟨l', _⟩ <;> rw [hl] at h <;> [simp [Except.bind] at h; skip]
    rcases hr : Tr.computeRob env r with _ | ⟨r', _⟩ <;> rw [hr] at h <;> [simp [Except.bind] at h; skip]
    simp only [Except.bind] at h
    cases hz : Tr.atomRob env k s.z l'.st.z r'.st.z with
    | error => rw [hz] at h; simp at h
    | ok z => rw [hz] at h; exact fin z _ (fun p => ⟨rfl, rfl⟩) h
  | not s c =>
    simp only [Tr.computeRob, bind] at h
    rcases hl : Tr.computeRob env c with _ | ⟨l', _⟩ <;> rw [hl] at h <;> [simp [Except.bind] at h; skip]
    simp only [Except.bind] at h
    exact fin (computeNot l'.st.z) (fun p => (.not { s with z := computeNot l'.st.z } l', p.value))
      (fun p => ⟨rfl, rfl⟩) h
  | and s l r =>
    simp only [Tr.computeRob, bind] at h
    rcases hl : Tr.computeRob env l with _ | ⟨l', _⟩ <;> rw [hl] at h <;> [simp [Except.bind] at h; skip]
    rcases hr : Tr.computeRob env r with _ | ⟨r', _⟩ <;> rw [hr] at h <;> [simp [Except.bind] at h; skip]
    simp only [Except.bind] at h
    cases hz : Tr.andRob l'.st.z r'.st.z with
    | error => rw [hz] at h; simp at h
    | ok z => rw [hz] at h; exact fin z _ (fun p => ⟨rfl, rfl⟩) h
  | or s l r =>
    simp only [Tr.computeRob, bind] at h
    rcases hl : Tr.computeRob env l with _ | ⟨l', _⟩ <;> rw [hl] at h <;> [simp [Except.bind] at h; skip]
    rcases hr : Tr.computeRob env r with _ | ⟨r', _⟩ <;> rw [hr] at h <;> [simp [Except.bind] at h; skip]
    simp only [Except.bind] at h
    cases hz : Tr.orRob l'.st.z r'.st.z with
    | error => rw [hz] at h; simp at h
    | ok z => rw [hz] at h; exact fin z _ (fun p => ⟨rfl, rfl⟩) h
  | implies s l r =>
    simp only [Tr.computeRob, bind] at h
    rcases hl : Tr.computeRob env l with _ | ⟨l', _⟩ <;> rw [hl] at h <;> [simp [Except.bind] at h; skip]
    rcases hr : Tr.computeRob env r with _ | ⟨r', _⟩ <;> rw [hr] at h <;> [simp [Except.bind] at h; skip]
    simp only [Except.bind] at h
    cases hz : computeImpliesM l'.st.z r'.st.z with
    | error => rw [hz] at h; simp at h
    | ok z => rw [hz] at h; exact fin z _ (fun p => ⟨rfl, rfl⟩) h
  | untl s l I r =>
    simp only [Tr.computeRob, bind] at h
    rcases hl : Tr.computeRob env l with _ | ⟨l', _⟩ <;> rw [hl] at h <;> [simp [Except.bind] at h; skip]
    rcases hr : Tr.computeRob env r with _ | ⟨r', _⟩ <;> rw [hr] at h <;> [simp [Except.bind] at h; skip]
    simp only [Except.bind] at h
    cases hz : Tr.untilRob env.B s (Tr.ivA env.params I) (Tr.ivB env.params I) l'.st.z r'.st.z with
    | error => rw [hz] at h; simp at h
    | ok z => rw [hz] at h; exact fin z _ (fun p => ⟨rfl, rfl⟩) h
  | alw s I c =>
    simp only [Tr.computeRob, bind] at h
    rcases hl : Tr.computeRob env c with _ | ⟨c', _⟩ <;> rw [hl] at h <;> [simp [Except.bind] at h; skip]
    simp only [Except.bind] at h
    cases hz : Tr.alwRob env.B s (Tr.ivA env.params I) (Tr.ivB env.params I) c'.st.z with
    | error => rw [hz] at h; simp at h
    | ok z => rw [hz] at h; exact fin z _ (fun p => ⟨rfl, rfl⟩) h
  | ev s I c =>
    simp only [Tr.computeRob, bind] at h
    rcases hl : Tr.computeRob env c with _ | ⟨c', _⟩ <;> rw [hl] at h <;> [simp [Except.bind] at h; skip]
    simp only [Except.bind] at h
    cases hz : Tr.evRob env.B s (Tr.ivA env.params I) (Tr.ivB env.params I) c'.st.z with
    | error => rw [hz] at h; simp at h
    | ok z => rw [hz] at h; exact fin z.1 _ (fun p => ⟨rfl, rfl⟩) h

/-- Preparation and the normal form commute. -/
theorem nnf_prepare (P : Assoc ℚ) : ∀ (T : Tr) (b : Bool) (s e : ℚ),
    Monitor.prepare P s e (nnf b T) = nnf b (Monitor.prepare P s e T) := by
  unfold Monitor.prepare
  intro T
  induction T with
  | sig | const | abs | plus | minus | mult =>
    intro b s e
    cases b <;> simp [nnf, Tr.setTraceData, Tr.setParamMap, Tr.reset, Tr.setHorizon]
  | atom =>
    intro b s e
    cases b <;> simp [nnf, Tr.setTraceData, Tr.setParamMap, Tr.reset, Tr.setHorizon]
  | not _ c ih =>
    intro b s e
    simp [nnf, Tr.setTraceData, Tr.setParamMap, Tr.reset, Tr.setHorizon, ih]
  | ev _ _ c ih | alw _ _ c ih =>
    intro b s e
    cases b <;> simp [nnf, Tr.setTraceData, Tr.setParamMap, Tr.reset, Tr.setHorizon, ih]
  | and _ l r ih1 ih2 | or _ l r ih1 ih2 | implies _ l r ih1 ih2 | untl _ l _ r ih1 ih2 =>
    intro b s e
    cases b <;> simp [nnf, Tr.setTraceData, Tr.setParamMap, Tr.reset, Tr.setHorizon, ih1, ih2]

theorem isTerm_prepare (P : Assoc ℚ) : ∀ (T : Tr) (s e : ℚ), IsTerm T → IsTerm (Monitor.prepare P s e T) := by
  unfold Monitor.prepare
  intro T
  induction T with
  | sig | const => intros; trivial
  | abs _ c ih => exact fun s e h => ih s e h
  | plus _ l r ih1 ih2 | minus _ l r ih1 ih2 | mult _ l r ih1 ih2 =>
    exact fun s e h => ⟨ih1 s e h.1, ih2 s e h.2⟩
  | _ => exact fun _ _ h => h.elim

theorem isStl_prepare (P : Assoc ℚ) : ∀ (T : Tr) (s e : ℚ), IsStl T → IsStl (Monitor.prepare P s e T) := by
  intro T
  induction T with
  | sig | const | abs | plus | minus | mult => exact fun _ _ h => h.elim
  | atom _ k l r => exact fun s e h => ⟨isTerm_prepare P l s e h.1, isTerm_prepare P r s e h.2⟩
  | not _ c ih => exact fun s e h => ih s e h
  | ev _ _ c ih | alw _ _ c ih => exact fun s e h => ih _ _ h
  | and _ l r ih1 ih2 | or _ l r ih1 ih2 | implies _ l r ih1 ih2 =>
    exact fun s e h => ⟨ih1 s e h.1, ih2 s e h.2⟩
  | untl _ l _ r ih1 ih2 => exact fun s e h => ⟨ih1 _ _ h.1, ih2 _ _ h.2⟩

theorem isFormula_nnf (n : ℕ) (P : Assoc ℚ) : ∀ (T : Tr) (b : Bool), IsFormula n P T →
    IsFormula n P (nnf b T) := by
  intro T
  induction T with
  | sig | const | abs | plus | minus | mult | untl => intro b h; exact h.elim
  | atom => intro b h; cases b <;> exact h
  | not _ c ih => intro b h; rw [nnf]; exact ih _ h
  | ev _ _ c ih | alw _ _ c ih => intro b h; cases b <;> exact ⟨h.1, h.2.1, ih _ h.2.2⟩
  | and _ l r ih1 ih2 | or _ l r ih1 ih2 | implies _ l r ih1 ih2 =>
    intro b h; cases b <;> exact ⟨ih1 _ h.1, ih2 _ h.2⟩

theorem neg_iSup_ereal {ι : Sort*} (f : ι → EReal) : -(⨆ i, f i) = ⨅ i, -f i :=
  OrderIso.map_iSup EReal.negOrderIso f

theorem neg_iInf_ereal {ι : Sort*} (f : ι → EReal) : -(⨅ i, f i) = ⨆ i, -f i :=
  OrderIso.map_iInf EReal.negOrderIso f

/-- The laws hold for the robustness. -/
theorem rob_nnf (ip : Interpol) (D : List (List ℚ)) (P : Assoc ℚ) : ∀ (T : Tr) (b : Bool) (t : ℚ),
    IsStl T → rob ip D P (nnf b T) t = if b then -rob ip D P T t else rob ip D P T t := by
  intro T
  induction T with
  | sig | const | abs | plus | minus | mult => intro b t h; exact h.elim
  | atom _ k l r =>
    intro b t h
    cases b with
    | false => rfl
    | true =>
      simp only [nnf, rob, if_true]
      rw [← er_neg]
      cases k <;> simp [opposite, margin]
  | not _ c ih =>
    intro b t h
    rw [nnf, ih _ _ h]
    cases b <;> simp [rob]
  | and _ l r ih1 ih2 =>
    intro b t h
    cases b
    · simp [nnf, rob, ih1 _ _ h.1, ih2 _ _ h.2]
    · simp only [nnf, rob, ih1 _ _ h.1, ih2 _ _ h.2, if_true]
      exact (OrderIso.map_inf EReal.negOrderIso _ _).symm
  | or _ l r ih1 ih2 =>
    intro b t h
    cases b
    · simp [nnf, rob, ih1 _ _ h.1, ih2 _ _ h.2]
    · simp only [nnf, rob, ih1 _ _ h.1, ih2 _ _ h.2, if_true]
      exact (OrderIso.map_sup EReal.negOrderIso _ _).symm
  | implies _ l r ih1 ih2 | untl _ l _ r ih1 ih2 =>
    intro b t h
    cases b <;> simp [nnf, rob, ih1 _ _ h.1, ih2 _ _ h.2]
  | ev _ _ c ih =>
    intro b t h
    cases b
    · simp [nnf, rob, ih _ _ h]
    · simp only [nnf, rob, ih _ _ h, if_true, neg_iSup_ereal]
  | alw _ _ c ih =>
    intro b t h
    cases b
    · simp [nnf, rob, ih _ _ h]
    · simp only [nnf, rob, ih _ _ h, if_true, neg_iInf_ereal]

end STLRom
