# Formal model of STLRom in Lean 4

The source studied is /repo (decyphir/STLRom). The properties are in
`properties.jsonl`, their status in `MANIFEST.json`, mutation tests in
`seeded/LOG.jsonl`. This file says what is modelled, how each property is
proved, and what has to be trusted.

## Trusted base

* Lean 4.33.0's kernel, and Mathlib's definitions of `ℚ`, order, `List`.
* Axioms: at most `propext`, `Classical.choice`, `Quot.sound`. No axiom is
  added. `decide +kernel` is used only for concrete witnesses and finite tables.
* That the model says what the C++ says. Every model definition cites the file
  and lines it transcribes; nothing is executed against the C++ here.

## What is modelled

| Lean module | C++ |
|---|---|
| `Verif/Model/Basic` | outcomes: value, undefined behaviour, non-finite arithmetic, exception |
| `Verif/Model/Signal` | include/signal.h, src/signal.cpp |
| `Verif/Model/Robust` | src/robustness.cpp |
| `Verif/Model/Members` | src/robustness.cpp: the members `Signal::compute_plateau_max/min`, `compute_bounded_eventually/globally` |
| `Verif/Model/Transducer` | include/transducer.h, src/transducer.cpp, src/interval_transducer.cpp, src/stl_atom.cpp, src/signal_expr.cpp, include/signal_expr.h |
| `Verif/Model/Monitor` | include/stl_monitor.h, src/stl_monitor.cpp |
| `Verif/Model/Driver` | include/stl_driver.h, src/stl_driver.cpp, src/tools.cpp |
| `Verif/Model/World` | client programs: lists of calls on drivers and monitors |
| `Verif/Model/Horizon` | the literal set_horizon/init_horizon calls |
| `Verif/Model/Scanner` | src/stl_scanner.cpp: the flex tables, the matching loop and the actions |
| `Verif/Model/Parser` | src/stl_parser.cpp: the bison tables, the driving loop and the actions |
| `Verif/Model/Heap` | who allocates, clones, keeps and deletes formula nodes: include/transducer.h, src/stl_driver.cpp, include/stl_monitor.h, the actions of src/stl_parser.cpp |
| `Verif/Model/Print` | the `print` methods of include/transducer.h and include/signal_expr.h, `interval::to_string` of src/interval.cpp, the default format of `os << double` |
| `Verif/Model/Rounded`, `RoundedRun`, `Double` | src/signal.cpp, src/robustness.cpp, src/transducer.cpp and src/stl_monitor.cpp again, with every arithmetic operation rounded to a double |
| `Verif/Model/Tools` | include/tools.h, src/tools.cpp, src/interval.cpp (constructors), trace files of src/stl_driver.cpp |
| `Verif/Model/Poll` | include/stl_driver.h:261-311, `dump_test_log_file` of src/stl_driver.cpp |
| `Verif/Model/Complete` | src/transducer.cpp:113-141 |
| `Verif/Model/Alias` | src/robustness.cpp:18-411 with references to one object |
| `Verif/Model/Stream` | src/signal.cpp:242-274, include/signal.h:26,41, include/stl_monitor.h:254-309, src/stl_driver.cpp:241-284,548-563, src/pybind11/main.cpp:32-54 |
| `Verif/Model/ReadPoint` | src/pybind11/main.cpp:23-30 |
| `Verif/Model/Update` | src/update_transducer.cpp:10-43 |
| `Verif/Model/PrintTrace` | src/tools.cpp:77-103 |

Conventions and simplifications, all deliberate:

* **Numbers.** A `double` is an exact rational. Every finite double is rational,
  so the model covers all finite inputs, but rounding, NaN and infinities are
  not modelled. A division by zero is the distinct outcome `Fault.nonfinite`,
  never `x/0 = 0`. "Equal" in the theorems is therefore equality before
  rounding; the theorems say the *algorithm* is right, not that its
  floating-point execution is exact. `Model/Rounded`, `Model/RoundedRun` and
  `Model/Double` repeat the evaluation with the rounding of binary64 (to
  nearest, ties to even, subnormal numbers, no overflow, no fused
  multiply-add), and C76 says when this makes no difference.
* **Undefined behaviour** is the outcome `Fault.ub`: dereferencing `rend()`,
  `front()`/`back()`/`pop` on an empty deque, incrementing past the end,
  comparing iterators of different containers, double delete.
* **Loops** that have an evident bound are structural recursions on the
  remaining iterator range. A loop whose termination is not evident takes fuel
  and running out of fuel is the distinct outcome `Fault.fuel`; the theorems
  prove it does not happen.
* **Reverse iterators** over a deque are the list of the remaining elements in
  reverse order: `*i` is the head, `i++` the tail, `rend()` is `[]`.
* **Globals** (`Signal::BigM`, `Signal::semantics`, `Signal::interpol`) are an
  explicit argument; `eval_rob` sets the last two exactly where the code does.
* **Pointers.** `trace_data_ptr`, `param_map_ptr` are replaced by the data they
  point to at evaluation time (eval_rob sets them first).
* Not modelled: warnings and the date in test logs, debug code under `#ifdef`, file names, memory
  exhaustion, dead code (`update_lower_rob`, `update_upper_rob`).

## Specification side

`Verif/Spec` holds definitions that do not mention the code's helpers.

* A signal denotes a function of time. Because signals may jump, the value is
  taken on both sides of a time: the last sample at or before `t` extrapolated
  to `t` (right value), or the last sample strictly before `t` (left limit).
* STL semantics: `Spec.rob` by recursion on the formula, with values in the extended reals;
  `ev`/`alw` are the supremum/infimum over the rational times of the closed window.
  `Spec.Sat` is the Boolean semantics.
* Texts: `Spec.Fml` (formulas as one writes them, their fully parenthesised words, the nodes they
  stand for), `Spec.Grammar` (all ways of writing one), `Spec.Program` (statements).

## Properties: what is modelled and how it is proved

| Id | Plan |
|---|---|
| C01, C02 | induction over the list of appends |
| C03 | direct, map over samples |
| C04, C05, C07 | loop invariants for the segment and partial routines: the suffix already written denotes the minimum; `or` by duality under negation |
| C06 | from C03 and C05 |
| C08 | the rotation loop preserves the denotation; fuel bound |
| C09, C10 | case analysis / map |
| C11 | loop invariant: suffix denotes supremum of the future |
| C12, C13, C14 | candidate queue invariant for plateauMax; window supremum of a piecewise linear function is attained at the ends or at breakpoints; duality |
| C15 | `untilLoop`/`segmentUntil` by induction over the left operand's pieces from the right: `Unt` (Proofs/Until.lean) is the greatest number certified by one point; `unt_falling` and `unt_rising` say how it splits at the end of a monotone piece; `evSeg` runs `computePartialEventually` on one stretch; `segmentOr_ext`, `partialOr_ext` glue in front of what is there. Negations by witness |
| C16 | the rewriting into bounded `always`, bounded `eventually` and untimed `until` is proved correct (`wnt_of`) and composed with C12, C13, C15 and the conjunction. Negation by witness |
| C17 | every signal operator returns from the single fact that a signal's first sample is at its begin time (`Proofs/Total`); all leaves of an expression have the same sample times, on the first run and again (`Proofs/TotalRun`, `trimTimes`); then structural induction (`Proofs/TotalEval`). Negations by witness for until and the time semantics. LEFT_TIME (`Spec/LeftTotal`, `Proofs/TotalLeft`): the same induction, in which a comparison's signal keeps increasing sample times and begins before it ends, also after an `ev` above it cut its front; that is what `compute_left_time_rob` needs for a non-empty result. RIGHT_TIME (`Props/RightTime`): the first comparison evaluated has a Boolean signal, and the loop over it is undefined behaviour |
| C18, C19 | invariant over operations |
| C20, C21 | structural induction on formulas from C03-C13. A slope is only lost where the operand has no sample between the end of the first window and the end of its interval: `simplify` always puts one at the end, an atom has one per row (`Marked`, `Mark`), so formulas whose inner temporal operators have Boolean operands need no condition on the rows (`Props/Joined`). C21 with PREVIOUS interpolation from C22: the two bound computations leave the robustness signal of the root alone (`bnd_rested`) |
| C22 | as C20 with `Proofs/Step`: every signal is a list of constant pieces with increasing times (`Steps`, `Flat`, `SInc`), kept by the Boolean operators (`Proofs/StepAnd`) and by sliding windows (`Proofs/StepTimed`). Inside the sliding window two intermediate signals can have several samples at the time one window length before the end; `Proofs/StepDup` shows that the merge drops them, since the peaks there dominate and are at least as many. With `until` (`Spec/UntilNest`, `Proofs/StepUntil`, `Proofs/UntilNest`): `until` on step signals is a step signal; its signal is longer than the evaluation interval on both sides, so the induction keeps wider signals that are exact on the evaluation interval (`Wide`). Negations at a jump exactly on a window end, and for an `until` over two `until`s |
| C23, C24 | state erasure: evaluation starts by overwriting every field it reads |
| C28 | structural induction on the covered fragment; with PREVIOUS interpolation from C62, since on a covering trace everything is known and the bounds of the interval semantics are the robustness (`known_covers`, `bound_covers`). Negations where the code is unsound |
| C25, C26, C27, C62 | `Spec/Interval` is the interval semantics: how far each bound is known, and its value. The first run on an incomplete trace is the run on the trace clipped at its last row (`Proofs/Clip`, `Proofs/PartialEval`); operators on operands that end at different times (`Proofs/Partial`); each bound by structural induction (`bnd_part`); the second bound does not depend on the first (`bnd_keeps`). Soundness and monotonicity are then facts about the specification alone (`bound_sound`, `bound_mono`). PREVIOUS interpolation: the same induction on step signals (`Proofs/StepEv`, `Proofs/StepPartial`, `bnd_step`); a bound that `ev` or `alw` uses beyond the last time its operand is known has the value just before that time there, so the operand must not jump exactly then (`StepBound`). Negations by witness |
| C63, C64 | the first value of timed `until` is right without any condition on lost slopes (`Proofs/UntilFirst`); operands that are comparisons are sampled exactly at the rows (`atom_first`), which rules out the defect of C15 (`risesClear_grid`); `Wnt.sup` turns certified numbers into the supremum of infima; the three computations are joined as in C62 (`Proofs/UntilRun`). PREVIOUS interpolation: step operands have no rising piece, so the defect of C15 cannot occur; `Wnt.sup_step` gives the supremum over the window without its end (`Proofs/UntilStep`, `Props/UntilStep`). Negations by witness |
| C67 | `Spec/Top` says which formulas. Operands other than comparisons can lose pieces after their first sample, so nothing is claimed about later values: only the first value of each signal is followed through `compute_and`, `compute_or`, `compute_until` and `Simplify` (`Proofs/Front`, `Proofs/UntilFront`: `Lead`); `compute_robustness` of `until` extends its signal back to 0 with the first value, and Boolean operators keep that shape (`Proofs/UntilLate`: `Led`), and the operands inside the window are exact by C20 (`Proofs/UntilTop`). With PREVIOUS interpolation the same induction over the Boolean operators is used, with the exactness of C22 below (`Proofs/UntilTopStep`, `Props/UntilTopStep`). Negations by witness |
| C68 | `Model/Members` has the members literally. `compute_plateau_max` takes the same steps as the free function of C12, so it returns a well-formed signal on the interval of its operand (`plateauMaxMLoop_step`); that the result is never below `x` follows from the maximum taken with `x`. `globally` by negation. Negations by witness |
| C69 | `declares_again`: declaring names on top of a list of their first ones gives the same list; then C61. Negations by running the parser |
| C70 | `Spec/Nnf` writes the normal form; `rob_nnf` shows it keeps the robustness. `zOf_nnf`: the first run gives the same signal, faults included, by the duality of the two separately written families of routines (`computeAndM_not`, `computeTimedGlobally_not`), `resize_not`, and `atomLoop_not` for the opposite comparison; the cut `ev` makes in its child never fails and is not read again by the first run. Negations by witness |
| C71 | `Proofs/Select`: every routine of the signal library keeps a set of values that contains `B`, 0 and negatives, when all slopes are 0 (`Post` is partial correctness, so runs that fault are covered vacuously); `Proofs/SelectRun`: the signals of an expression are exactly its values in one common list of rows (`term_rows`, `term_again` for the second and third run), and the three runs keep the invariant `TIn` at every node |
| C72 | `Proofs/Affine`: every routine of the signal library commutes with `Signal.afs c k` (times plus `c`, values times `k`), the timed until only for `c = 0`; `Proofs/AffineRun`: the three runs commute (`rob_af`, `low_up_af`, `run3_af`), faults included. C72 is `k = 1`. With `until` on covering traces (`Proofs/Later`): the robustness and all conditions of C67, C22, C80 and C81 move with the trace |
| C73 | as C72, with `c = 0` |
| C74 | `Model/Dump`: `dump` as a loop over the formulas without reset. `Proofs/Dump` (`rob_second`): evaluating again from the state that the three computations left gives the same signal on the interval, under the conditions of C20 |
| C75 | `Spec/Mono`: `SampledUp`, row-wise order of margins by polarity. `Proofs/Mono`: the order carries over from rows to all times (linear and previous interpolation) and from comparisons to the robustness and the bounds. Combined with the exactness results; `until` with PREVIOUS interpolation in `Props/UntilFacts`, below temporal operators in `Props/NestFacts` and `Props/Later` |
| C76 | `Model/Rounded`, `Model/RoundedRun`: the whole evaluation again with a rounding after every arithmetic operation; `Model/Double`: the rounding of binary64. `Proofs/Rounded`: with the identity this is the exact model. `Proofs/Grid`, `GridRun`: simulation, every time stays on the grid and within the radius `allReach`, every slope is 0; `Proofs/Double`: multiples of a power of 2 within range are kept. Witness by `decide +kernel` |
| C77 | As C71, for the rounded run of C76. `Spec/SelectFp`: margins computed in doubles. `Proofs/SelectFp`, `LeafFp`, `TermFp`, `SelectFpRun`: slopes stay 0 and values stay in a set fixed by the rounding, which times need not be; `Proofs/DoubleRep`, `DoubleNear`: `dbl` is the nearest double, rounds monotonically and is idempotent |
| C78 | The rounded run of C76. `Proofs/StepFp`: as C22, the signal in doubles is a step signal whose values are those of the exact robustness, rounded; rounding is monotone and odd, so it commutes with negation, minimum and maximum, and a step signal attains its suprema. Times are on the grid, so the operations in doubles are the exact ones (the simulations of C76). `dbl_mono`, `dbl_odd`: for the nearest double. Negation by the witness of C76_time_false |
| C79 | The whole run in LEFT_TIME mode (`Model/Transducer`). `Spec/LeftTime`: left time robustness of a function of time. `Proofs/LeftRun`: the comparison's signal has the left time robustness of the margin as its values (from C49), and `compute_timed_eventually`/`globally` take its greatest/least value. That a number is returned is C17 for LEFT_TIME |
| C80 | The whole run in LINEAR mode. `Proofs/UntilCts`: `compute_until` on continuous signals gives a continuous signal whose samples lie on it. `Proofs/UntilLin`: the signal of an `until` node is continuous, ends with a sample and is exact on the evaluation interval although it starts at 0 and ends later; `ev` and `alw` over such a signal; induction over formulas (`rob_lin`) |
| C81 | The whole run of `eval_rob`: three computations on one transducer. `Proofs/TotalUntil`: `compute_timed_until` returns when the operands overlap. `Proofs/Runs`: `compute_robustness` on a covering trace. `Proofs/RunsBounds`: the bounds, with the early returns of `until` when the bounds of an operand are `±B`. `Proofs/RunsEval`: the three together |
| C82 | The accessors, and the text of the log file (`Model/Poll`). Proved by relating the driver to a first-in-first-out queue (`Spec/Poll`) through every call; for the counts, positive results and waiting tests together never exceed the number of tests added |
| C83 | `get_end_complete` and its versions for the bounds (`Model/Complete`), read from the tree an evaluation leaves behind. Proved by an invariant of all three computations: no signal below the operator ends after the last row, so that a formula that says to be complete has rows up to its horizon; then C20 and C30 apply |
| C84 | Streams that remember `fixed` and the precision, and the text of all printing calls (`Model/Stream`). `Spec/Stream`: the numbers of an item. Proved by showing that a number of at most six digits is written alike with every precision from six on (`general_short`), and that an item's text depends on the format by way of its numbers only |
| C85 | `removeInf` on the list of samples (`Model/Signal`). Proved by splitting the reversed list |
| C86 | Numbered signal objects, with operands passed by number (`Model/Alias`): the target is cleared before the operands are read, as in the code. Proved by cases on the operation |
| C87 | `print_monitor` of the Python module, on a new stream, by way of `get_monitor` (`Model/Stream`). Proved from the texts of C84 and from the fact that a cloned formula is written like the original (`print_clone`) |
| C88 | `cin >> double` with the states of the stream, and `read_point` (`Model/ReadPoint`). Proved with the number reader of C66 on a number followed by a blank (`Spec/Sci`, `number_sci`), by induction on the lines |
| C89 | Both versions of `update_robustness` on the trees of `Model/Transducer` (`Model/Update`). Proved by cases on the class |
| C90 | The loops of both `print` functions of src/tools.cpp (`Model/PrintTrace`). Proved by induction on the rows with the counter |
| C91 | `read_trace` of `Model/Tools`. `Spec/TraceFile`: lines of numbers with white space; `Spec/Sci`: numbers. Proved by induction on the numbers of a line (`readRowAux_line`) and on the lines |
| C65 | `Spec.Clear` says which node trees the grammar groups as they are without parentheses; for those the printed text is spelled by words of `Spec.Grammar` (`Proofs/PrintRead`: no word runs on into the next), a number of six digits is printed as a literal with its value (`Proofs/PrintNum`), other numbers print like the nearest six-digit one (`Proofs/Digits`), and C41_grammar reads the words. Negations: pairs of formulas that print the same text |
| C66 | `Spec.Ypp` has the 64 rules of stl_parser.ypp and their derivations. Invariant of the LALR run: the states on the stack derive the tokens shifted so far, which with the lookahead are those at the front of the text (`Proofs/Accept`). While the first definition is read the driver does not change, so its tokens are classified by the driver before the parse. A derivation over the ambiguous rules is flat (`Proofs/Flat`), and every flat sequence of words is read by `Spec.Grammar` (`Proofs/Derived`, with the kinds of words in `Proofs/Kinds`); the other direction is C41_grammar |
| C29 | evaluating `not phi` against evaluating `phi`, all semantics: `rob_settles` (what the first run leaves), `bnd_keeps` (a bound leaves alone what the other one reads; atoms are run again, `atom_rerun`, `leftTimeRob_again`), `bnd_swap` (the two bounds in either order) |
| C30 | the first run does not read past the first row after the horizon (`sigRead_past`); in PREVIOUS mode also not past a row at it, up to samples that are trimmed (`leaf_prev`), so both first runs differ only in `td_idx` (`bare`, `rob_past`). The bounds run the atoms again and read one more row each, which the atoms ignore (`atom_once_more`, `rob_reached`); the bounds of trees that differ only in what is not read are equal (`Alike.seen`). LINEAR mode with a row at the horizon: from C20/C28 |
| C31, C32, C34 | direct |
| C33 | substitution lemma by structural induction |
| C35, C36, C37 | from C23 and the model of clone |
| C38, C39 | structural induction on the STL specification, transferred by C20, with PREVIOUS interpolation by C22 (`Proofs/PrevRows`: margins at a time are margins in a row), with `until` outside temporal operators by C67 (`Proofs/UntilFacts`, `Props/UntilFacts`), below them by C22 (`Proofs/NestFacts`, `Props/NestFacts`); negations by witness |
| C40, C41 | `Spec.Fml` has formulas as written, `Spec.Grammar` an unambiguous grammar of their texts with any choice of parentheses; by induction on a derivation, the automaton moves over the words from every state that can precede them (`Proofs/ReadText`) |
| C42 | every state of the automaton is matched with the residuals of the rules (Brzozowski derivatives); the agreement of the tables is a finite check, lifted to all texts by induction; gaps and identifiers from which states jam on which bytes |
| C43 | invariant of the parsing loop over every effect an action can have; for the text of a declaration, a run of the automaton by induction on the names |
| C44 | induction on the signals |
| C45 | negation by witness; partial: the invariant of the parsing loop lists the effects an action can have |
| C46 | the text by C41; later calls and parses keep what formulas say, by cases over the calls and C45; no shared nodes from the invariant of C56 |
| C47 | negation: trailing blank adds a value; partial |
| C48, C49, C50 | negations and partials |
| C51, C52 | invariants |
| C53 | negation between samples at the horizon; partial at sample times |
| C54 | induction, idempotence |
| C55 | negation (conversion to int); partial for integers |
| C56 | `Model/Heap` repeats the parser's actions and the driver's and monitor's calls on trees of addresses; invariant: the multiset of all addresses reachable from drivers, monitors and the parser's stack has no repetition and is allocated; negations by witness. Nothing is lost by a text that changes no pointer of the driver (`Proofs/Leak`): each grammar symbol owns what `yy_destroy_` releases for it, every action but those of definitions and tests hands on all it was given, and the tables only reduce a test below a test header |
| C61 | `Spec.Program` says what statements are, how they are written and what they do; the automaton is followed through each kind of statement, keeping track of a word that was read before the action of the statement before it (`Proofs/ReadProg`) |
| C59 | invariant over the appended samples |
| C60 | tables of predecessor states and of the kinds of values per symbol, checked by `decide +kernel`; a measure of the configuration falls at every round |
| C57 | constants with a non-empty name re-read the map, so erasing them makes the two runs equal; negation: literals have the empty name |

## Findings: where a property is false of the code

Each is proved by a concrete witness (theorem names end in `_false`).

1. `compute_and`/`compute_or` (and so `implies`) drop a value that both signals take only at
   their common end time: C04_false, C05_false, C06_false; C12_closing_false for windows.
2. `resize(s, e, v)` with `s` after the last sample loses that sample's slope: C09_false, and
   through it C12_false and C13_false.
3. `compute_eventually` appends to whatever the target already holds: C11_false.
4. `get_BigM` converts to `int`: C55_false, C55_large_false.
5. `STLDriver::set_param("", v)` overwrites every literal constant of every formula, because a
   literal is a constant with an empty parameter name: C57_false.
6. The lost slope of finding 2 reaches `eval_rob`: C20_false (3 returned, robustness 23/6),
   C21_false (wrong value inside the signal), C38_false (wrong sign).
7. `ev_transducer::compute_robustness` shortens the signal of its child
   (src/transducer.cpp:177). An atom appends to that shortened signal when the bounds are
   computed and never recovers the cut part, so both bounds may be wrong: C28_false,
   C25_false (lower bound 3, robustness -1), C27_false (a new sample raises the upper bound).
8. `transducer::compute_upper_rob` appends `BOTTOM` where `TOP` is meant
   (src/interval_transducer.cpp:36): before the data reaches the time of an atom its upper bound
   is -BigM, C26_false, C62_false.
9. `+`, `-`, `*` and `abs` produce a signal that ends at the last sample before the interval's end:
   C53_false.
10. `until` on a one-row trace, or before enough data has arrived, is undefined behaviour:
   C17_false, C17_late_false. In the time semantics a comparison evaluated at a single time takes
   the front of an empty signal (LEFT_TIME) or compares foreign iterators (RIGHT_TIME):
   C17_time_false.
11. `compute_boolean` keeps 0 along a piece that starts at zero and rises: C48_false, C49_false.
12. `compute_right_time_rob` compares an iterator of the Boolean signal with the end of another
   container (src/robustness.cpp:94): undefined on every signal of positive length, C50_undefined.
13. `run_tests` assigns `trace_data_ptr` of the root instead of calling `set_trace_data_ptr`, so the
   leaves read an uninitialised `td_idx` (C51_run_undefined, C51_false), or the position left by an
   earlier evaluation (C58_false: robustness 3 reported as 0). On an empty queue it pops from an
   empty deque (C51_empty_undefined).
14. `append_signal` onto an empty signal, or onto one that ends where the other begins, goes through
   `append_sample`, which recomputes slopes: jumps are lost with LINEAR, slopes with PREVIOUS
   (C59_copy_false).
15. `signal_map_to_string` with no signals reads an array of length 0 (C44_false).
16. `read_trace` on a file written by `dump_trace_file` adds an indeterminate value to every row,
   because of the blank before the newline (C47_false); on text that is no number it never ends, and
   it ignores a last line without newline (C47_text_false).
17. Scanner: a comment on a last line without newline is an error (C42_comment_false); a byte above
   127, or NUL, silently ends the input (C42_high_false); `.` is a number (C42_point_false); a minus
   sign directly before a digit always belongs to the number, so `x[t]-3` is not a subtraction
   (C42_minus_false).
18. A parse that fails keeps the effects of the rules already reduced: `phi := x[t] > 1 )` returns
   false and defines `phi`, and parameters and signals likewise (C45_false).
19. `or` and `=>` carry the precedence of `and` (`%prec AND`, src/stl_parser.ypp:315,323), so both
   group to the right at one level: `a => b or c` is `a => (b or c)`, and `a or b or c`, `a => b => c`
   group to the right although declared `%left` (C41_false).
20. `STLDriver::clear` deletes the formula of a queued test and then destroys the test, which deletes
   it again (C56_clear_false). Copying a driver copies the pointers of its test entries and queue, so
   destroying the copy and the original releases them twice (C56_copy_false). Defining a name again
   drops the old formula without releasing it (C56_leak_false).
21. The lost closing value of finding 1 reaches `eval_rob` with PREVIOUS interpolation:
   `ev_[0,1] (x > 0 and y > 0)` does not see a jump at time 1, C22_false (-1 returned, robustness 3).
22. `computePartialEventually` (src/robustness.cpp:1217-1220) measures the time where a falling piece
   reaches the running maximum from `s` instead of from the piece's own start, wrong when the
   piece began before `s`, which happens only inside `until`: C15_false (2 returned, robustness
   4.4; the result also has a sample after its end time).
23. `until` never looks at the right operand's value at the common end: with PREVIOUS interpolation
   the last row of a trace is ignored (C15_closing_false).
24. `compute_timed_until` chooses its branch by `b > min(end times)` where a duration is meant
   (src/robustness.cpp:387): signals on [5,10] with window [0,8] run off the end of the list
   (C16_false).
25. `until_transducer::compute_upper_rob` (src/interval_transducer.cpp:323-330) treats the rows seen
   so far as the whole trace: the upper bound of `x > 0 until_[0,10] y > 0` after rows up to time
   2 is -1, and a later row makes the robustness 4 (C64_false).
26. `until_[a,a]` evaluated at one time is undefined behaviour whatever the trace (C63_false);
   an operand that begins at exactly -BigM or BigM stops the bounds from meeting (C63_bound_false,
   the early returns of src/interval_transducer.cpp:300-301, 321-322).
27. Printing loses parentheses (include/transducer.h:271-385, include/signal_expr.h:206-272) and all
   but six digits: `not (a and b)` prints as `not a and b`, `x-(y-z)` as `x-y-z`, and these are read
   back as other formulas, the first with robustness of the opposite sign (C65_false, C65_sign_false).
   `x[t]+3` and `x[t]-3` print without blanks and are rejected, because the scanner takes the sign
   into the number; so are numbers from 1000000 on, which print with an exponent (C65_rejected_false).
28. `abs` is only allowed as the leftmost operand (src/stl_parser.ypp:214-256): `abs(y[t]) + x[t] > 0` is
   accepted and `x[t] + abs(y[t]) > 0` is a syntax error (C66_abs_false).
29. The early returns of `until_transducer::compute_lower_rob` and `compute_upper_rob`
   (src/interval_transducer.cpp:300-301, 321-322) leave the signal of the bound empty. An `and`, `or` or
   `=>` above then dereferences `rbegin()` of an empty list: on a trace with an operand at -BigM
   (C67_false), and on every trace that does not reach the horizon yet, like
   `x > 0 and (x > 0 until_[0,1] ev_[0,1] y > 0)` after two rows (C17_until_false). An `ev` above reads the
   value 0 instead, which is no bound (C25_until_false).
30. `compute_upper_rob` of `until` cuts its signal at `endTime - b`, although the end is already shifted by
   `a`; below a temporal operator the upper bound is then BigM on a complete trace (C67_nested_false).
31. The members `Signal::compute_bounded_eventually` and `compute_bounded_globally`
   (src/robustness.cpp:240-266, 309-329) are not the window operators: the first is 5 instead of 6 on a
   rising line (C68_false), 0 instead of at most -5 on a falling one (C68_high_false); a window longer than the signal is
   undefined behaviour (C68_undefined), and so is a signal that begins before time 0
   (C68_early_false). `eval_rob` does not call them.
32. `STLDriver::clear` keeps the signal map and the data (src/stl_driver.cpp): a text that declares the
   signals in another order is evaluated with the columns swapped (C69_false), and old rows stay
   (C69_data_false).
33. Robustness is not 1-Lipschitz in the sampled values: for
   `ev_[0,2] ((alw_[0,3] ev_[0,1] x > 0) and y > 0)` lowering one value of `x` by 1/100 lowers the result from
   -3 to below -3.8, because the slope lost on the straight trace (finding 2) is kept on the bent one
   (C39_false).
34. Equivalent formulas are evaluated differently. `x > 0 or x > 0` in place of `x > 0` changes
   `alw_[0,2] ((ev_[0,3] x > 0) or y > 0)` from 3 to 23/6, the right value (C70_false); swapping the operands
   of an inner `or` changes a result from -5/3 to -3 where the robustness is -1 (C70_comm_false; the atoms
   contain arithmetic); `p => q` ends where the shorter operand ends while `not p or q` goes on with the longer
   one (C70_implies_false); after one row `ev_[1,4] not y > 0` has lower bound +10000 and `ev_[1,4] y < 0` has
   -10000 (C70_bounds_false).
35. The upper bound of `not ev_[0,2] (x > 1 until_[1,2] y > 0)` after one row is 0, a number that occurs nowhere
   in the data and lies below the returned robustness 3 (C71_zero_false): the until bounds end early and the
   fill value 0 of `resize` is read as a value.
36. `compute_timed_until` compares the bound `b` of its window with the absolute end of the operands
   (src/robustness.cpp:387): `x > 0 until_[0,2] y > 0` on two rows at 0 and 1 gives 1, and on the same rows at 3
   and 4, evaluated at 3, has undefined behaviour (C72_false). Rows are read by loops that start with time 0
   (src/stl_atom.cpp:78,120), so at a negative end time no row is read and the result is undefined behaviour
   (C72_negative_false).
37. `STLDriver::dump` sets the data pointer of the root of a formula only (src/stl_driver.cpp:294), like
   `run_tests`: unless every formula has been evaluated before, a leaf dereferences a null pointer with an
   uninitialised index (C74_undefined). It does not reset the formula either, so after `set_param` the file
   holds the old robustness (C74_stale_false).
38. The result is not monotone in the trace: raising one value of a signal that occurs positively can lower the
   number returned. With `alw_[0,2] ((ev_[0,3] (alw_[0,1] (x > 0))) or y > 0)` and x = t, y = 8 - 5t on three
   rows, the inner `ev` yields a single sample whose slope is lost (finding on C39), and moving x off the line
   by 1/100 downwards raises the result from 3 to 3.83 (C75_false).
39. Rounding errors can turn the sign of the result. With linear interpolation two comparisons whose margins differ by
   rounding noise only (y is x + 0.1 up to rounding, `ev_[0,20] (x > 0 and y > 0.1)`, rows `0 -3.3 -3.2`,
   `10 -5.9 -5.8`, `20 -0.2 -0.1`) have lines that meet, according to `timeIntersect`, far outside of the piece, and
   `compute_and` puts a sample with the value extrapolated to there. `eval_rob` returns 2.08 though x is never above
   -0.2; the upper bound is -0.2, below the result (C76_sign_false).
40. With piecewise constant signals too rounding can turn the sign of the result: it moves the end of a window over a
   row. `ev_[0,0.2] x > 0` evaluated at 0.1 looks to `0.1 + 0.2`, which rounds upwards to 0.30000000000000004; a row
   with that time stamp is in the window in doubles, and not in that of the exact sum (C76_time_false). No number is
   made up, though: the result is still the margin in some row (C77_partial).
41. With PREVIOUS interpolation the online bounds are wrong when a signal jumps in the last row so far.
   `alw_[0,2] ev_[0,1] (x > 0 and y > 0)` gets the lower bound 3 from rows up to time 2, in the last of which x has
   fallen to -5; on the whole trace the robustness is -5 (C25_previous_false). `ev_[0,2] alw_[0,1] x > 0` gets the
   upper bound -3 from rows in the last of which x has risen to 5, and 5 after the next row (C26_previous_false,
   C27_previous_false).
42. With PREVIOUS interpolation `get_signal` after `eval_rob(0,1)` for `x > 0 or y > 0` is -1 at time 1, where x and y
   have just jumped to 5 and 3 (C21_previous_false): the closing sample of a Boolean operator carries the value from
   before the jump.
43. With PREVIOUS interpolation `until` does not see the right operand at the end of its window: `x > 0 until_[0,2]
   y > 0` evaluated at 0 gives -1 although y has jumped to 4 at time 2 and x is 5 throughout (C63_previous_false). The
   result is then too low, never too high (C63_below_previous_partial).
44. Finding 43 through the whole evaluation, with a Boolean operator above: both bounds and the value of such an `until`
   agree on -1 on a covering trace, so nothing in the results tells that the robustness is at least 4
   (C67_previous_false).
45. `until_transducer::compute_robustness` extends its signal back to time 0 (`z.resize(0, ...)`). When both operands of
   an `until` are such signals, the outer one starts at 0 too, and its first sample, which is returned, belongs to
   time 0 instead of the evaluation time. `(x > 0 until_[0,1] x > 0) until_[0,1] (x > 0 until_[0,1] y > 0)` evaluated
   at 2 returns -1, while the robustness is 4 and `lower_rob` and `upper_rob` are 4 (C22_until_false,
   C22_until_bounds). With LINEAR interpolation it returns 23/7 (C80_false).
46. In the LEFT_TIME semantics a comparison below `ev_[a,b]` or `alw_[a,b]` is evaluated over the window only, so that the
   time since its truth last changed is counted from the beginning of the window at the earliest: x is 1 from time 0
   on, and `ev_[0,1] x > 0` evaluated at 3 gives 1 + 1e-14 (C79_false). The bounds neither agree with
   the value nor bracket it: `ev_transducer::compute_robustness` extends the comparison's signal backwards, and the
   recomputation for the bounds starts from that signal and counts the time from its new beginning; over rows with x = -1 at 0 and 1 at 2 and 4 the same formula
   has the value 1 + 1e-14 and both bounds 2 + 1e-14 at 3, and the value -1e-14 and both bounds -(1 + 1e-14) at 0
   (C79_bounds_false).
47. `eval_rob` can be undefined behaviour on a trace that covers the formula. `x + y > 0 until_[1,2] y > 0` on
   rows at 0, 1, 10: the signal of `x + y` ends at 1, where the window begins (C81_false); with rows at 0, 3/2, 10 the
   value is 2. `x > 0 and ((x > 0 until_[1,2] y > 0) until_[0,1] y > 0)` on rows at 0, 1, 2, 3, 10: the upper bound
   of the inner `until` is cut short (finding 30), and what is left meets the right operand of the outer one in a single
   point (C81_nested_false).
48. `get_next_stl_test` and `get_next_formula` return a null pointer when the first trace test has no tests left, but when
   there is no trace test at all they read the front of an empty deque, unlike `get_next_trace_test` (C82_false).
49. `get_end_complete` subtracts the end of the window from the end of the operand's signal. That is right for one temporal
   operator over comparisons only (C83_partial): the signal of an operand that is itself temporal does not end where its
   result is final. `ev_[0,1] ev_[0,5] x > 0` with rows up to time 3 says at time 0 that it is complete, and its value
   changes with the row at time 6 (C83_false). Boolean operators return the end of their own signal
   (C83_and_false). `get_end_complete_up` reads a placeholder where no row reaches the window (C83_up_false), and `get_end_complete_low` fails like it for nested operators
   (C83_low_false). No other code
   calls these functions.
50. `operator<<` of a sample sets the precision of the stream to 8 and `print_point` and `print_sample` set `cout` to
   `fixed` with five digits; none of them restores it. After `print_sample`, `display_formula` writes `x[t] > 1e-06` as
   `x[t] > 0.00000` (C84_false). The bounds of a signal with times like 1234567 are written in two ways when the signal is
   written twice (C84_signal_false).
51. `removeInf` cuts off samples and leaves `endTime` as it is: the last sample kept is then extended over the part cut
   off, along its slope. A signal that was plus infinity from 3 on has the value 11 at 5 afterwards (C85_false). Infinite
   samples before a finite one stay (C85_middle_false). No other code calls the function.
52. `compute_not`, `compute_and`, `compute_or`, `compute_implies`, `compute_boolean` and the time robustnesses clear their
   target before they read their operands. `s.compute_not(s)`, which the Python module offers, always empties `s`
   (C86_not, C86_false); the others are then undefined behaviour (C86_undefined). The timed operations copy their operands
   and are safe (C86_partial), but on an empty operand the target keeps its old `beginTime` and `endTime`
   (C86_empty_false).
53. In the LEFT_TIME semantics `ev_[0,0] x > 0` evaluated over a proper interval is undefined behaviour, while `x > 0` and
   `alw_[0,0] x > 0` return a number: `ev` cuts its child's signal down to one time, and when the bounds are computed the
   comparison's left time robustness at one time is empty. `ev_[0,2] x + y > 0` is undefined behaviour, on covering traces
   too, when no row lies in the window (C17_left_false). Every evaluation at a single time of a formula
   whose first comparison is under no temporal operator is undefined behaviour (C17_left_first_false), and so is every
   evaluation that begins at or after the last row (C17_left_late_false).
54. In the RIGHT_TIME semantics every evaluation is undefined behaviour, for every formula and any data (C17_right_false):
   `compute_right_time_rob` compares an iterator of `y_bool` with `y.end()`, and where the Boolean signal is empty the value
   is read from an empty deque.
55. `print_monitor` of the Python module calls `print` on the formula of `get_monitor("phi")` without testing the pointer:
   for a driver without a formula named `phi` this is undefined behaviour (C87_undefined, C87_none_false). The lower
   robustness it writes is -BigM for all data, since `get_monitor` does not evaluate (C87_partial, C87_false).
56. `read_point` of the Python module reads into two variables without initial values and does not test the stream. At the
   end of the input they are used without a value, which is undefined behaviour (C88_false). Something that is not a number
   counts as 0 when it comes second, and the state of `cin` is never reset: all later calls are undefined behaviour
   (C88_zero_false, C88_stuck).
57. `unary_transducer::update_robustness` updates the operand, cuts its signal down to the last sample and returns the first
   value of its own signal, which it does not compute: `not`, `ev`, `alw` and `abs` return the number of the evaluation
   before (C89_stale), and on a new formula `front()` of an empty deque is undefined behaviour (C89_new_false, C89_false).
   The file is marked as work in progress and nothing calls it.
58. `print(data, n)` compares its counter after it has written a row: for `n` = 0 and negative `n` the first row is written
   (C90_first_false, C90_false).
59. `read_trace` pushes one more value, never assigned, for a line with white space at its end: in a file with Windows line
   ends this is every line (C91_windows_false). A last line without line break is dropped without a message
   (C91_last_false, C91_false). For a file with a line of names, or any other line that begins like no number, the call never
   returns (C91_header_false).
