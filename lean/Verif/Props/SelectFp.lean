import Verif.Props.Rounded
import Verif.Proofs.DoubleNear
import Verif.Proofs.SelectFpRun

/-!
# Property C77: no new numbers in doubles

With piecewise constant signals evaluation in doubles returns the margin of a comparison at a row, as
computed in doubles, up to sign: the rounding of times may select another row, but makes up no number.
-/

namespace STLRom
namespace Props
open Signal Spec Fp

/-- The rounding used in C76 and C77 is that to the nearest double: `dbl x` is a double, no double is
closer to `x`, and the error is at most half a unit in the last place. -/
theorem C76_nearest (x : ℚ) : IsDouble (dbl x) ∧ (∀ y, IsDouble y → |dbl x - x| ≤ |y - x|) ∧
    |dbl x - x| ≤ |x| / 2 ^ 53 + 1 / 2 ^ 1075 :=
  ⟨rep_dbl x, fun _ => dbl_closest x, dbl_error x⟩

-- The double nearest to 0.1, and a tie, which goes to the even mantissa.
example : dbl (1 / 10) = 3602879701896397 / 36028797018963968 ∧ dbl (2 ^ 53 + 1) = 2 ^ 53 ∧
    dbl (2 ^ 53 + 3) = 2 ^ 53 + 4 := by decide +kernel

/-- The rounding of doubles has what the proofs need. -/
theorem rnd_dbl : Rnd dbl where
  zero := rfl
  neg _ := dbl_neg
  idem := dbl_dbl
  tol s hs := dbl_le hs (by
    have : 0 < dbl Signal.tol := by decide +kernel
    linarith)

/-- The full claim, for both interpolations: on a trace of doubles every result is a computed margin
of a comparison at a row, up to sign, or one of `B`, `-B`, 0. -/
def C77_full : Prop := ∀ (g : Globals) (m : Monitor) (n : ℕ) (T : Tr) (s e r : ℚ),
  m.formula = some T → m.sem = .SPACE → m.params.lookup "" = none → WellShaped n m.data → Declared n T →
    dbl g.B = g.B → (∀ row ∈ m.data, ∀ x ∈ row, dbl x = x) → Consts dbl m.params T → dbl s = s → dbl e = e →
      (Fp.evalRob dbl g m s e).2.2 = .ok r → FlSelected dbl g.B m.data m.params T r

/-- C77 with `PREVIOUS` interpolation, for every formula, `until` included, every trace of doubles,
covering or not, and every interval, whatever rounding does to the times: the number returned in
doubles, both bounds, and every value in the signal of the formula are margins of a comparison at a
row, computed in doubles, up to sign, or one of `B`, `-B`, 0.  Missing from the full claim: `LINEAR`
interpolation (`C77_false`). -/
theorem C77_partial (g : Globals) (m : Monitor) (n : ℕ) (T : Tr) (s e r : ℚ)
    (hm : m.formula = some T) (hi : m.ip = .PREVIOUS) (hs : m.sem = .SPACE)
    (h0 : m.params.lookup "" = none) (hD : WellShaped n m.data) (hT : Declared n T)
    (hB : dbl g.B = g.B) (hd : ∀ row ∈ m.data, ∀ x ∈ row, dbl x = x) (hc : Consts dbl m.params T)
    (hst : dbl s = s) (het : dbl e = e) (h : (Fp.evalRob dbl g m s e).2.2 = .ok r) :
    FlSelected dbl g.B m.data m.params T r ∧
    FlSelected dbl g.B m.data m.params T (Fp.evalRob dbl g m s e).2.1.lowerRob ∧
    FlSelected dbl g.B m.data m.params T (Fp.evalRob dbl g m s e).2.1.upperRob ∧
    ∃ z, (Fp.evalRob dbl g m s e).2.1.getSignal = .ok z ∧
      ∀ p ∈ z.samples, FlSelected dbl g.B m.data m.params T p.value ∧ p.derivative = 0 := by
  have hV := vals_flSelected (P := m.params) rnd_dbl hB m.data T
  have hI : FIn dbl (FlSelected dbl g.B m.data m.params T) n m.data m.params (Fp.prepare dbl m.params s e T) :=
    fin_prepare rnd_dbl h0 hst het hT hc fun x hx => Or.inr (Or.inr (Or.inr (Or.inl hx)))
  have key := Fp.run3_in (env := ⟨g.B, m.sem, m.ip, m.data, m.params⟩) rnd_dbl hd hV hD hi hs hI
  unfold Fp.evalRob at h ⊢
  rw [hm] at h ⊢
  simp only at h ⊢
  cases hr : Fp.run3 dbl ⟨g.B, m.sem, m.ip, m.data, m.params⟩ (Fp.prepare dbl m.params s e T) with
  | error f => rw [hr] at h; simp at h
  | ok q =>
    obtain ⟨T1, r1, lo, up⟩ := q
    obtain ⟨k1, k2, k3, k4⟩ := key _ hr
    rw [hr] at h
    simp only [Except.ok.injEq] at h
    subst h
    exact ⟨k2, k3, k4, _, rfl, k1.st.1⟩

/-- `ev_[0,0.2] x > 0`. -/
def ftF : Tr := evT 0 (dbl (2 / 10)) (above sx 0)

/-- A row at 0, and one at `0.1 + 0.2` as computed in doubles. -/
def ftD : List (List ℚ) := [[0, -1], [dbl (dbl (1 / 10) + dbl (2 / 10)), 5], [1, -3]]

theorem ftD_rows : WellShaped 1 ftD := by
  have : dbl (dbl (1 / 10) + dbl (2 / 10)) = 1351079888211149 / 4503599627370496 := by decide +kernel
  refine ⟨by decide +kernel, ?_⟩
  simp only [ftD, this, List.pairwise_cons, List.mem_cons, List.not_mem_nil, or_false]
  simp
  norm_num

/-- With piecewise constant signals too rounding can turn the sign: it moves the end of a window over
a row.  Evaluated at 0.1, `ev_[0,0.2] x > 0` looks to `0.1 + 0.2`, which rounds upwards and so
reaches the second row; the exact sum of the same two doubles does not. -/
theorem C76_time_false :
    ((mon .PREVIOUS ftF ftD).evalRob1 .init (dbl (1 / 10))).2.2 = .ok (-1) ∧
    (Fp.evalRob1 dbl .init (mon .PREVIOUS ftF ftD) (dbl (1 / 10))).2.2 = .ok 5 := by
  decide +kernel

-- Times that need rounding, and a result that is not the exact one: it is a margin all the same.
example : (Fp.evalRob dbl .init (mon .PREVIOUS ftF ftD) (dbl (1 / 10)) (dbl (1 / 10))).2.2 = .ok 5 ∧
    FlSelected dbl Globals.init.B ftD [] ftF 5 := by
  have h : (Fp.evalRob dbl .init (mon .PREVIOUS ftF ftD) (dbl (1 / 10)) (dbl (1 / 10))).2.2 = .ok 5 := by
    decide +kernel
  exact ⟨h, (C77_partial .init (mon .PREVIOUS ftF ftD) 1 ftF (dbl (1 / 10)) (dbl (1 / 10)) 5 rfl rfl rfl rfl ftD_rows
    ⟨⟨1, rfl, by decide, by decide⟩, trivial⟩ (by decide +kernel) (by decide +kernel)
    ⟨trivial, (by decide +kernel : dbl 0 = 0)⟩ (dbl_dbl _) (dbl_dbl _) h).1⟩

/-- C77 is false with `LINEAR` interpolation: the 2.08 of `C76_sign_false` is the margin of nothing. -/
theorem C77_false : ¬ C77_full := by
  intro h
  obtain ⟨-, -, h2, -, -⟩ := C76_sign_false
  have := h .init (mon .LINEAR fpG fpX) 2 fpG 0 0 _ rfl rfl rfl fpX_rows
    ⟨⟨⟨1, rfl, by decide, by decide⟩, trivial⟩, ⟨2, rfl, by decide, by decide⟩, trivial⟩
    (by decide +kernel) (by decide +kernel) ⟨⟨trivial, (by decide +kernel : dbl 0 = 0)⟩, trivial, dbl_dbl (1 / 10)⟩
    (by decide +kernel) (by decide +kernel) h2
  revert this
  simp only [FlSelected, FlMarginOf, fpG, evT, above, fpX, mon]
  decide +kernel

end Props
end STLRom
