import Verif.Model.RoundedRun

/-!
# Without rounding the rounded model is the exact model
-/

namespace STLRom
namespace Fp

@[simp] theorem qdiv_id : qdiv id = STLRom.qdiv := rfl

@[simp] theorem valueAt_id : valueAt id = Sample.valueAt := rfl

@[simp] theorem timeIntersect_id : timeIntersect id = Sample.timeIntersect := rfl

@[simp] theorem appendSample_id : appendSample id = Signal.appendSample := by
  funext ip x t v d
  unfold appendSample Signal.appendSample
  simp only [qdiv_id, id]; rfl

@[simp] theorem appendSample0_id : appendSample0 id = Signal.appendSample0 := by
  funext ip x t v
  simp only [appendSample0, Signal.appendSample0, appendSample_id]

@[simp] theorem simplifyLoop_id : simplifyLoop id = Signal.simplifyLoop := by
  funext b n
  induction n with
  | zero => funext l; cases l <;> simp only [simplifyLoop, Signal.simplifyLoop]
  | succ n ih =>
    funext l
    cases l <;> simp only [simplifyLoop, Signal.simplifyLoop, ih, valueAt_id]; rfl

@[simp] theorem simplify_id : simplify id = Signal.simplify := by
  funext x
  simp only [simplify, Signal.simplify, simplifyLoop_id, valueAt_id]; rfl

@[simp] theorem resizeFront_id : resizeFront id = Signal.resizeFront := by
  funext x s
  simp only [resizeFront, Signal.resizeFront, valueAt_id]; rfl

@[simp] theorem resize_id : resize id = Signal.resize := by
  funext x s t v
  simp only [resize, Signal.resize, resizeFront_id, id]

@[simp] theorem shift_id : shift id = Signal.shift := rfl

@[simp] theorem segmentAndLoop_id : segmentAndLoop id = Signal.segmentAndLoop := by
  funext i z t c js
  induction js generalizing z t c with
  | nil => simp only [segmentAndLoop, Signal.segmentAndLoop]
  | cons j js ih => simp only [segmentAndLoop, Signal.segmentAndLoop, ih, valueAt_id, timeIntersect_id]

@[simp] theorem segmentAndLast_id : segmentAndLast id = Signal.segmentAndLast := rfl

@[simp] theorem segmentAnd_id : segmentAnd id = Signal.segmentAnd := by
  funext z i t js
  simp only [segmentAnd, Signal.segmentAnd, segmentAndLoop_id, segmentAndLast_id]; rfl

@[simp] theorem partialAnd_id : partialAnd id = Signal.partialAnd := by
  funext s z is js t
  induction is generalizing z js t with
  | nil => simp only [partialAnd, Signal.partialAnd]
  | cons i is ih => simp only [partialAnd, Signal.partialAnd, ih, valueAt_id, segmentAnd_id]; rfl

@[simp] theorem segmentOrLoop_id : segmentOrLoop id = Signal.segmentOrLoop := by
  funext i z t c js
  induction js generalizing z t c with
  | nil => simp only [segmentOrLoop, Signal.segmentOrLoop]
  | cons j js ih => simp only [segmentOrLoop, Signal.segmentOrLoop, ih, valueAt_id, timeIntersect_id]

@[simp] theorem segmentOrLast_id : segmentOrLast id = Signal.segmentOrLast := rfl

@[simp] theorem segmentOr_id : segmentOr id = Signal.segmentOr := by
  funext z i t js
  simp only [segmentOr, Signal.segmentOr, segmentOrLoop_id, segmentOrLast_id]; rfl

@[simp] theorem partialOr_id : partialOr id = Signal.partialOr := by
  funext s z is js t
  induction is generalizing z js t with
  | nil => simp only [partialOr, Signal.partialOr]
  | cons i is ih => simp only [partialOr, Signal.partialOr, ih, valueAt_id, segmentOr_id]; rfl

@[simp] theorem computeAndM_id : computeAndM id = Signal.computeAndM := by
  funext x y; simp only [computeAndM, Signal.computeAndM, partialAnd_id, simplify_id]

@[simp] theorem computeOrM_id : computeOrM id = Signal.computeOrM := by
  funext x y; simp only [computeOrM, Signal.computeOrM, partialOr_id, simplify_id]

@[simp] theorem computeImpliesM_id : computeImpliesM id = Signal.computeImpliesM := by
  funext x y; simp only [computeImpliesM, Signal.computeImpliesM, computeOrM_id]

@[simp] theorem computeAnd_id : computeAnd id = Signal.computeAnd := by
  funext x y; simp only [computeAnd, Signal.computeAnd, partialAnd_id, simplify_id]

@[simp] theorem computeOr_id : computeOr id = Signal.computeOr := by
  funext x y; simp only [computeOr, Signal.computeOr, partialOr_id, simplify_id]

@[simp] theorem partialEventually_id : partialEventually id = Signal.partialEventually := by
  funext s z is t c zm
  induction is generalizing z t c zm with
  | nil => simp only [partialEventually, Signal.partialEventually]
  | cons i is ih =>
    simp only [partialEventually, Signal.partialEventually, ih, valueAt_id, qdiv_id, id]; rfl

@[simp] theorem computeEventually_id : computeEventually id = Signal.computeEventually := by
  funext B x; simp only [computeEventually, Signal.computeEventually, partialEventually_id]

@[simp] theorem computeGlobally_id : computeGlobally id = Signal.computeGlobally := by
  funext B x; simp only [computeGlobally, Signal.computeGlobally, computeEventually_id]

@[simp] theorem peaksMax_id : peaksMax id = Signal.peaksMax := by
  funext js t v y
  induction js generalizing t v y with
  | nil => rfl
  | cons j js ih => simp only [peaksMax, Signal.peaksMax, ih, valueAt_id]

@[simp] theorem peaksMin_id : peaksMin id = Signal.peaksMin := by
  funext js t v y
  induction js generalizing t v y with
  | nil => rfl
  | cons j js ih => simp only [peaksMin, Signal.peaksMin, ih, valueAt_id]

@[simp] theorem plateauMaxLoop_id : plateauMaxLoop id = Signal.plateauMaxLoop := by
  funext B a n m is z t c e
  induction n generalizing m is z t c e with
  | zero => simp only [plateauMaxLoop, Signal.plateauMaxLoop]
  | succ n ih => simp only [plateauMaxLoop, Signal.plateauMaxLoop, ih, id]; rfl

@[simp] theorem plateauMinLoop_id : plateauMinLoop id = Signal.plateauMinLoop := by
  funext B a n m is z t c e
  induction n generalizing m is z t c e with
  | zero => simp only [plateauMinLoop, Signal.plateauMinLoop]
  | succ n ih => simp only [plateauMinLoop, Signal.plateauMinLoop, ih, id]; rfl

@[simp] theorem plateauMax_id : plateauMax id = Signal.plateauMax := by
  funext B x a; simp only [plateauMax, Signal.plateauMax, peaksMax_id, plateauMaxLoop_id, id]; rfl

@[simp] theorem plateauMin_id : plateauMin id = Signal.plateauMin := by
  funext B x a; simp only [plateauMin, Signal.plateauMin, peaksMin_id, plateauMinLoop_id, id]; rfl

@[simp] theorem computeBoundedEventually_id :
    computeBoundedEventually id = Signal.computeBoundedEventually := by
  funext B x a
  simp only [computeBoundedEventually, Signal.computeBoundedEventually, plateauMax_id, resize_id,
    computeOr_id, shift_id, simplify_id, id]

@[simp] theorem computeBoundedGlobally_id :
    computeBoundedGlobally id = Signal.computeBoundedGlobally := by
  funext B x a
  simp only [computeBoundedGlobally, Signal.computeBoundedGlobally, plateauMin_id, resize_id,
    computeAnd_id, shift_id, simplify_id, id]

@[simp] theorem computeTimedEventually_id :
    computeTimedEventually id = Signal.computeTimedEventually := by
  funext B old x a b
  simp only [computeTimedEventually, Signal.computeTimedEventually, computeEventually_id,
    computeBoundedEventually_id, shift_id, id]

@[simp] theorem computeTimedGlobally_id :
    computeTimedGlobally id = Signal.computeTimedGlobally := by
  funext B old x a b
  simp only [computeTimedGlobally, Signal.computeTimedGlobally, computeGlobally_id,
    computeBoundedGlobally_id, shift_id, id]

@[simp] theorem segmentUntil_id : segmentUntil id = Signal.segmentUntil := by
  funext B z i t js zm
  simp only [segmentUntil, Signal.segmentUntil, segmentAnd_id, segmentOr_id, partialEventually_id,
    partialOr_id, valueAt_id]

@[simp] theorem untilLoop_id : untilLoop id = Signal.untilLoop := by
  funext B s z is js t zm
  induction is generalizing z js t zm with
  | nil => simp only [untilLoop, Signal.untilLoop]
  | cons i is ih =>
    simp only [untilLoop, Signal.untilLoop, ih, segmentUntil_id, valueAt_id]; rfl

@[simp] theorem computeUntil_id : computeUntil id = Signal.computeUntil := by
  funext B x y; simp only [computeUntil, Signal.computeUntil, untilLoop_id, simplify_id]

@[simp] theorem computeTimedUntilF_id : computeTimedUntilF id = Signal.computeTimedUntilF := by
  funext B x y a b
  simp only [computeTimedUntilF, Signal.computeTimedUntilF, computeBoundedEventually_id,
    computeBoundedGlobally_id, computeUntil_id, computeAnd_id, shift_id, id]

@[simp] theorem computeTimedUntil_id : computeTimedUntil id = Signal.computeTimedUntil := by
  funext B old x y a b
  simp only [computeTimedUntil, Signal.computeTimedUntil, computeTimedUntilF_id, computeGlobally_id,
    computeBoundedGlobally_id, computeUntil_id, computeAnd_id, shift_id]

@[simp] theorem booleanLoop_id : booleanLoop id = Signal.booleanLoop := by
  funext e l
  induction l with
  | nil => rfl
  | cons i l ih =>
    simp only [booleanLoop, Signal.booleanLoop, ih, qdiv_id, id]; rfl

@[simp] theorem computeBoolean_id : computeBoolean id = Signal.computeBoolean := by
  funext y; simp only [computeBoolean, Signal.computeBoolean, booleanLoop_id, simplify_id]; rfl

@[simp] theorem computeLeftTimeRob_id : computeLeftTimeRob id = Signal.computeLeftTimeRob := by
  funext y; simp only [computeLeftTimeRob, Signal.computeLeftTimeRob, computeBoolean_id, id]

@[simp] theorem computeRightTimeRob_id : computeRightTimeRob id = Signal.computeRightTimeRob := by
  funext y; simp only [computeRightTimeRob, Signal.computeRightTimeRob, computeBoolean_id]; rfl

@[simp] theorem setHorizon_id : setHorizon id = Tr.setHorizon := by
  funext P s e T
  induction T generalizing s e <;> simp only [setHorizon, Tr.setHorizon, id, *]

@[simp] theorem sigRead_id : sigRead id = Tr.sigRead := by
  funext ip i stop rows z td t v
  induction rows generalizing z td t v with
  | nil => simp only [sigRead, Tr.sigRead]
  | cons row rows ih => simp only [sigRead, Tr.sigRead, ih, appendSample0_id]

@[simp] theorem constRead_id : constRead id = Tr.constRead := by
  funext ip v stop rows z td t
  induction rows generalizing z td t with
  | nil => simp only [constRead, Tr.constRead]
  | cons row rows ih => simp only [constRead, Tr.constRead, ih, appendSample0_id]

@[simp] theorem leafTrim_id : leafTrim id = Tr.leafTrim := by
  funext s e z t v; simp only [leafTrim, Tr.leafTrim, resize_id]

@[simp] theorem sigRob_id : sigRob id = Tr.sigRob := by
  funext env s v m td; simp only [sigRob, Tr.sigRob, leafTrim_id, sigRead_id]; rfl

@[simp] theorem constRob_id : constRob id = Tr.constRob := by
  funext env s v td; simp only [constRob, Tr.constRob, leafTrim_id, constRead_id]; rfl

@[simp] theorem binLoop_id : binLoop id = Tr.binLoop := by
  funext ip f z ps qs
  induction ps generalizing z qs with
  | nil => simp only [binLoop, Tr.binLoop]
  | cons p ps ih => cases qs <;> simp only [binLoop, Tr.binLoop, ih, appendSample0_id, id]

@[simp] theorem absLoop_id : absLoop id = Tr.absLoop := by
  funext ip z ps
  induction ps generalizing z with
  | nil => simp only [absLoop, Tr.absLoop]
  | cons p ps ih => simp only [absLoop, Tr.absLoop, ih, appendSample0_id]

@[simp] theorem atomLoop_id : atomLoop id = Tr.atomLoop := by
  funext ip k z ps qs
  induction ps generalizing z qs with
  | nil => cases qs <;> simp only [atomLoop, Tr.atomLoop]
  | cons p ps ih => cases qs <;> cases k <;> simp only [atomLoop, Tr.atomLoop, ih, appendSample_id, id]

@[simp] theorem atomRob_id : atomRob id = Tr.atomRob := by
  funext env k z zl zr; simp only [atomRob, Tr.atomRob, atomLoop_id, computeLeftTimeRob_id, computeRightTimeRob_id]; rfl

@[simp] theorem andRob_id : andRob id = Tr.andRob := by
  funext zl zr; simp only [andRob, Tr.andRob, computeAndM_id]

@[simp] theorem orRob_id : orRob id = Tr.orRob := by
  funext zl zr; simp only [orRob, Tr.orRob, computeOrM_id]

@[simp] theorem evRob_id : evRob id = Tr.evRob := by
  funext B s a b zc; simp only [evRob, Tr.evRob, computeTimedEventually_id, resize_id, id]

@[simp] theorem alwRob_id : alwRob id = Tr.alwRob := by
  funext B s a b zc; simp only [alwRob, Tr.alwRob, computeTimedGlobally_id, resize_id]

@[simp] theorem untilRob_id : untilRob id = Tr.untilRob := by
  funext B s a b zl zr; simp only [untilRob, Tr.untilRob, computeTimedUntil_id, resize_id]

@[simp] theorem computeRob_id : computeRob id = Tr.computeRob := by
  funext env T
  induction T <;> simp only [computeRob, Tr.computeRob, sigRob_id, constRob_id, binLoop_id, absLoop_id,
    atomRob_id, andRob_id, orRob_id, computeImpliesM_id, evRob_id, alwRob_id, untilRob_id, *]

@[simp] theorem appendIfEmpty_id : appendIfEmpty id = Tr.appendIfEmpty := by
  funext ip z t c; simp only [appendIfEmpty, Tr.appendIfEmpty, appendSample0_id]

@[simp] theorem defaultLow_id : defaultLow id = Tr.defaultLow := by
  funext env s; simp only [defaultLow, Tr.defaultLow, appendSample0_id]

@[simp] theorem defaultUp_id : defaultUp id = Tr.defaultUp := by
  funext env s; simp only [defaultUp, Tr.defaultUp, appendSample0_id]

@[simp] theorem andLow_id : andLow id = Tr.andLow := by
  funext env s zl zr; simp only [andLow, Tr.andLow, computeAndM_id, resize_id, appendIfEmpty_id]

@[simp] theorem andUp_id : andUp id = Tr.andUp := by
  funext env s zl zr; simp only [andUp, Tr.andUp, computeAndM_id, resize_id, appendIfEmpty_id]

@[simp] theorem orLow_id : orLow id = Tr.orLow := by
  funext env s zl zr; simp only [orLow, Tr.orLow, computeOrM_id, resize_id, appendIfEmpty_id]

@[simp] theorem orUp_id : orUp id = Tr.orUp := by
  funext env s zl zr; simp only [orUp, Tr.orUp, computeOrM_id, resize_id, appendIfEmpty_id]

@[simp] theorem impliesLow_id : impliesLow id = Tr.impliesLow := by
  funext env s zl zr; simp only [impliesLow, Tr.impliesLow, computeOrM_id, resize_id, appendIfEmpty_id]

@[simp] theorem impliesUp_id : impliesUp id = Tr.impliesUp := by
  funext env s zl zr; simp only [impliesUp, Tr.impliesUp, computeOrM_id, resize_id, appendIfEmpty_id]

@[simp] theorem evLow_id : evLow id = Tr.evLow := by
  funext env s a b zc; simp only [evLow, Tr.evLow, computeTimedEventually_id, resize_id, appendIfEmpty_id, appendSample0_id]

@[simp] theorem evUp_id : evUp id = Tr.evUp := by
  funext env s a b zc; simp only [evUp, Tr.evUp, computeTimedEventually_id, resize_id, appendIfEmpty_id, appendSample0_id, id]

@[simp] theorem alwLow_id : alwLow id = Tr.alwLow := by
  funext env s a b zc; simp only [alwLow, Tr.alwLow, computeTimedGlobally_id, resize_id, appendIfEmpty_id, appendSample0_id, id]

@[simp] theorem alwUp_id : alwUp id = Tr.alwUp := by
  funext env s a b zc; simp only [alwUp, Tr.alwUp, computeTimedGlobally_id, resize_id, appendIfEmpty_id, appendSample0_id]

@[simp] theorem untilLow_id : untilLow id = Tr.untilLow := by
  funext env s a b zl zr; simp only [untilLow, Tr.untilLow, computeTimedUntil_id, resize_id]; rfl

@[simp] theorem untilUp_id : untilUp id = Tr.untilUp := by
  funext env s a b zl zr; simp only [untilUp, Tr.untilUp, computeTimedUntil_id, resize_id, id]; rfl

theorem low_up_id (env : Env) (T : Tr) :
    computeLow id env T = Tr.computeLow env T ∧ computeUp id env T = Tr.computeUp env T := by
  induction T <;> constructor <;> simp only [computeLow, computeUp, Tr.computeLow, Tr.computeUp,
    computeRob_id, defaultLow_id, defaultUp_id, andLow_id, andUp_id, orLow_id, orUp_id, impliesLow_id,
    impliesUp_id, evLow_id, evUp_id, alwLow_id, alwUp_id, untilLow_id, untilUp_id, appendSample0_id, *]

@[simp] theorem computeLow_id : computeLow id = Tr.computeLow := by
  funext env T; exact (low_up_id env T).1

@[simp] theorem computeUp_id : computeUp id = Tr.computeUp := by
  funext env T; exact (low_up_id env T).2

@[simp] theorem prepare_id : prepare id = Monitor.prepare := by
  funext P s e T; simp only [prepare, Monitor.prepare, setHorizon_id]

@[simp] theorem run3_id : run3 id = Monitor.run3 := by
  funext env T; simp only [run3, Monitor.run3, computeRob_id, computeLow_id, computeUp_id]

/-- With `rd := id` an evaluation is the one of the exact model. -/
@[simp] theorem evalRob_id : evalRob id = Monitor.evalRob := by
  funext g m s e; simp only [evalRob, Monitor.evalRob, prepare_id, run3_id]; rfl

@[simp] theorem evalRob1_id : evalRob1 id = Monitor.evalRob1 := by
  funext g m t; simp only [evalRob1, Monitor.evalRob1, evalRob_id]

end Fp
end STLRom
