{"id": "C01", "title": "append_sample builds the interpolated signal", "statement": "Starting from an empty Signal and calling append_sample(t,v) any number of times, the signal's value at every accepted sample time is the value given for it, and between two consecutive accepted times it is the straight line joining them (LINEAR) or the earlier value (PREVIOUS).", "quantifier": "every finite list of (time,value) pairs, every query time, both interpolation modes", "why_tests_cant": "the signal is a function on a continuum of times built by an unbounded sequence of calls", "anchors": ["src/signal.cpp:appendSample", "include/signal.h:valueAt", "src/pybind11/main.cpp:append_sample"]}
{"id": "C02", "title": "append_sample ignores non-increasing times", "statement": "append_sample with a time not greater than the signal's current end leaves a non-empty signal completely unchanged; otherwise exactly one sample is added. Hence after any calls the stored times are strictly increasing, begin_time is the first and end_time the last.", "quantifier": "every sequence of append_sample calls", "why_tests_cant": "histories are unbounded", "anchors": ["src/signal.cpp:appendSample"]}
{"id": "C03", "title": "compute_not is pointwise negation", "statement": "After z.compute_not(y), z has the begin/end of y and z(t) = -y(t) at every time; applying it twice gives back y.", "quantifier": "every signal, every time", "why_tests_cant": "continuum of times and unbounded signals", "anchors": ["src/robustness.cpp:compute_not"]}
{"id": "C04", "title": "compute_and is the pointwise minimum", "statement": "For non-empty time-ordered signals x,y that overlap, z.compute_and(x,y) terminates without touching memory outside the deques, z is defined on the intersection of the two domains, and z(t) = min(x(t),y(t)) at every t in it, including at crossing points between samples and at jumps.", "quantifier": "every pair of piecewise-linear signals (any sample counts, alignment, slopes, jumps), every time", "why_tests_cant": "crossings happen at unsampled rational times; the interleavings of two sample sequences are unbounded", "anchors": ["src/robustness.cpp:compute_and,computePartialAnd,computeSegmentAnd", "include/signal.h:timeIntersect"]}
{"id": "C05", "title": "compute_or is the pointwise maximum", "statement": "As C04 with max in place of min.", "quantifier": "every pair of piecewise-linear signals, every time", "why_tests_cant": "as C04", "anchors": ["src/robustness.cpp:compute_or,computePartialOr,computeSegmentOr"]}
{"id": "C06", "title": "compute_implies is max(-x,y)", "statement": "z.compute_implies(x,y) yields z(t) = max(-x(t), y(t)) on the intersection of the domains.", "quantifier": "every pair of piecewise-linear signals, every time", "why_tests_cant": "as C04", "anchors": ["src/robustness.cpp:compute_implies"]}
{"id": "C07", "title": "De Morgan holds between the separately written and/or routines", "statement": "compute_and(x,y) and the negation of compute_or of the negations denote the same signal, although the two routines are separate copies of the code.", "quantifier": "every pair of signals", "why_tests_cant": "two 80-line routines must agree on every interleaving", "anchors": ["src/robustness.cpp:computeSegmentAnd,computeSegmentOr"]}
{"id": "C08", "title": "simplify changes the representation, never the signal", "statement": "simplify() terminates on every non-empty signal whose first sample is at begin_time and whose other samples are later; the resulting signal has the same value at every time and never more than one extra sample.", "quantifier": "every well-formed signal, every time", "why_tests_cant": "rotation loop over an unbounded deque, equality at a continuum of times", "anchors": ["src/signal.cpp:simplify"]}
{"id": "C09", "title": "resize restricts a signal to [s,t]", "statement": "For begin <= s <= t <= end, resize(s,t,v) gives a signal defined exactly on [s,t] with unchanged values there; if t exceeds the old end the new part carries the padding value v.", "quantifier": "every well-formed signal, every s,t,v", "why_tests_cant": "sample positions relative to s and t are unbounded", "anchors": ["src/signal.cpp:resize"]}
{"id": "C10", "title": "shift translates a signal in time", "statement": "After shift(a), the value at t+a is the old value at t, for every t.", "quantifier": "every signal, every a, every t", "why_tests_cant": "continuum of times", "anchors": ["src/signal.cpp:shift"]}
{"id": "C11", "title": "eventually without bound is the running supremum of the future", "statement": "compute_eventually(x)(t) is the least upper bound of x over [t, end], for every t (values within +-BigM); computeGlobally gives the greatest lower bound.", "quantifier": "every signal, every time", "why_tests_cant": "supremum over a continuum", "anchors": ["src/robustness.cpp:computePartialEventually,computeEventually,computeGlobally"]}
{"id": "C12", "title": "timed eventually is the sliding-window supremum", "statement": "compute_timed_eventually(x,a,b)(t) is the least upper bound of x over [t+a, t+b] (cut to the domain of x) for every t, 0<=a<=b.", "quantifier": "every signal with values within +-BigM, every window, every time", "why_tests_cant": "Lemire's streaming queue has unboundedly many interleavings of entering and leaving breakpoints; the spec is a supremum over a continuum", "anchors": ["src/robustness.cpp:compute_timed_eventually,computeBoundedEventually,plateauMax"]}
{"id": "C13", "title": "timed always is the sliding-window infimum", "statement": "compute_timed_globally(x,a,b)(t) is the greatest lower bound of x over [t+a, t+b] (cut to the domain) for every t.", "quantifier": "every signal with values within +-BigM, every window, every time", "why_tests_cant": "as C12", "anchors": ["src/robustness.cpp:compute_timed_globally,computeBoundedGlobally,plateauMin"]}
{"id": "C14", "title": "always is the dual of eventually", "statement": "compute_timed_globally(x,a,b) denotes the negation of compute_timed_eventually(-x,a,b), although plateauMin/computeAnd are separate copies of plateauMax/computeOr.", "quantifier": "every signal and window", "why_tests_cant": "separately written copies must agree on all inputs", "anchors": ["src/robustness.cpp:plateauMin,plateauMax,compute_timed_globally,compute_timed_eventually"]}
{"id": "C15", "title": "untimed until computes sup-min", "statement": "compute_until(x,y)(t) = sup over t' >= t of min(y(t'), inf of x over [t,t']).", "quantifier": "every pair of signals, every time", "why_tests_cant": "nested suprema over continua", "anchors": ["src/robustness.cpp:compute_until,computeSegmentUntil"]}
{"id": "C16", "title": "timed until computes bounded sup-min", "statement": "compute_timed_until(x,y,a,b)(t) = sup over t' in [t+a,t+b] of min(y(t'), inf of x over [t,t']).", "quantifier": "every pair of signals, every window, every time", "why_tests_cant": "as C15", "anchors": ["src/robustness.cpp:compute_timed_until,computeTimedUntil"]}
{"id": "C17", "title": "evaluation never reads outside a signal", "statement": "Evaluating any parsed formula on any accepted trace, at any non-negative time, terminates with a number or a C++ exception; no iterator runs past a container, no front()/back() is taken on an empty signal.", "quantifier": "every formula, trace and evaluation time", "why_tests_cant": "undefined behaviour only shows on particular alignments, and may be silent", "anchors": ["src/robustness.cpp", "src/transducer.cpp", "src/interval_transducer.cpp"]}
{"id": "C18", "title": "add_sample accepts exactly the well-shaped, later samples", "statement": "add_sample(s) (monitor and driver) appends s iff it has one time and one value per declared signal and its time is strictly greater than the last stored time; otherwise it throws and the stored data is unchanged.", "quantifier": "every stored history and every vector", "why_tests_cant": "histories are unbounded", "anchors": ["src/stl_monitor.cpp:add_sample", "src/stl_driver.cpp:add_sample"]}
{"id": "C19", "title": "stored traces stay strictly ordered and rectangular", "statement": "After any interleaving of add_sample, set_param, set_semantics, set_interpol, eval_rob and reset calls starting from an empty monitor, the data rows have strictly increasing times and equal length.", "quantifier": "every operation history", "why_tests_cant": "histories are unbounded", "anchors": ["src/stl_monitor.cpp", "include/stl_monitor.h"]}
{"id": "C20", "title": "eval_rob computes the STL robustness semantics", "statement": "If the trace covers the formula's horizon at t0, eval_rob(t0) in SPACE/LINEAR mode equals the quantitative semantics of the formula at t0 over the linear interpolation of the trace: atoms are differences, not/and/or/implies are -/min/max, ev/alw are sup/inf over the closed time window.", "quantifier": "every formula (atoms over signals and constants; not/and/or/implies/ev/alw nested arbitrarily), every trace with values within +-BigM, every t0", "why_tests_cant": "formulas nest unboundedly and each temporal operator is a supremum over a continuum", "anchors": ["src/stl_monitor.cpp:eval_rob", "src/transducer.cpp", "src/stl_atom.cpp"]}
{"id": "C21", "title": "eval_rob over an interval and get_signal return the whole robustness signal", "statement": "After eval_rob(t1,t2) on a trace covering the horizon, get_signal() is defined on [t1,t2] and its value at every t there is the quantitative semantics at t; the returned number is the value at t1.", "quantifier": "as C20, every t in [t1,t2]", "why_tests_cant": "as C20", "anchors": ["src/stl_monitor.cpp:eval_rob", "include/stl_monitor.h:get_signal"]}
{"id": "C22", "title": "PREVIOUS interpolation evaluates the step-function semantics", "statement": "As C20 with interpol PREVIOUS: the result equals the quantitative semantics over the right-continuous step function of the trace.", "quantifier": "as C20", "why_tests_cant": "as C20", "anchors": ["src/signal.cpp:appendSample", "src/stl_monitor.cpp:eval_rob"]}
{"id": "C23", "title": "evaluation is a function of the inputs, not of the history", "statement": "eval_rob's results (robustness, lower and upper bound, signal) depend only on the formula, the stored data, the parameter values, the semantics, the interpolation and the evaluation times; earlier evaluations, with whatever arguments, never influence them. In particular repeating a call gives the same results.", "quantifier": "every monitor history", "why_tests_cant": "every node caches three signals and a read cursor that survive between calls", "anchors": ["src/stl_monitor.cpp:eval_rob", "src/transducer.cpp:reset", "include/signal_expr.h:set_trace_data_ptr"]}
{"id": "C24", "title": "monitors do not interfere through the global settings", "statement": "Interleaving evaluations of monitors with different semantics/interpolation gives each the same results as evaluating it alone.", "quantifier": "every interleaving of evaluations of any number of monitors", "why_tests_cant": "schedules are unbounded", "anchors": ["src/stl_monitor.cpp:eval_rob", "include/signal.h:semantics,interpol"]}
{"id": "C25", "title": "the online lower bound is sound", "statement": "After eval_rob on a partial trace, get_lower_rob() is at most the robustness of every completion of the trace (values within +-BigM).", "quantifier": "every formula, every partial trace, every extension of it", "why_tests_cant": "quantifies over all futures", "anchors": ["src/interval_transducer.cpp"]}
{"id": "C26", "title": "the online upper bound is sound", "statement": "After eval_rob on a partial trace, get_upper_rob() is at least the robustness of every completion of the trace.", "quantifier": "every formula, every partial trace, every extension of it", "why_tests_cant": "quantifies over all futures", "anchors": ["src/interval_transducer.cpp"]}
{"id": "C27", "title": "online bounds only tighten as samples arrive", "statement": "Adding further samples never decreases the lower bound nor increases the upper bound.", "quantifier": "every formula, every trace and extension", "why_tests_cant": "quantifies over all futures", "anchors": ["src/interval_transducer.cpp"]}
{"id": "C28", "title": "online bounds meet on a complete trace", "statement": "When the trace covers the horizon, lower bound = robustness = upper bound.", "quantifier": "every formula, every covering trace", "why_tests_cant": "unbounded formulas and traces", "anchors": ["src/interval_transducer.cpp", "src/transducer.cpp"]}
{"id": "C29", "title": "negation swaps the bounds", "statement": "The bounds of (not phi) are the negated bounds of phi, swapped, and its robustness is the negated robustness.", "quantifier": "every formula, trace and time", "why_tests_cant": "unbounded formulas", "anchors": ["src/interval_transducer.cpp:not_transducer", "src/transducer.cpp:not_transducer"]}
{"id": "C30", "title": "data beyond the horizon is irrelevant", "statement": "For a trace covering the horizon, appending samples (or changing rows later than the first one past the horizon) does not change robustness or bounds.", "quantifier": "every formula, trace and continuation", "why_tests_cant": "quantifies over all futures", "anchors": ["src/transducer.cpp:init_horizon", "src/stl_atom.cpp"]}
{"id": "C31", "title": "monitor parameters read back what was written", "statement": "set_param(p,v) on an existing parameter makes get_param(p) return v and changes no other parameter; on an unknown name both throw and nothing changes.", "quantifier": "every parameter map and history", "why_tests_cant": "histories are unbounded", "anchors": ["include/stl_monitor.h:set_param,get_param"]}
{"id": "C32", "title": "driver parameters: unknown names are ignored", "statement": "STLDriver::set_param on an existing name makes get_param return the value and leaves the others; on an unknown name it changes no parameter and get_param returns 0. It never throws.", "quantifier": "every parameter map", "why_tests_cant": "histories are unbounded", "anchors": ["src/stl_driver.cpp:get_param,set_param"]}
{"id": "C33", "title": "a parameter behaves like the constant it holds", "statement": "Evaluating a formula mentioning parameter p (in an atom or as an interval bound) gives the same results as evaluating the formula with the parameter's current value written in its place.", "quantifier": "every formula, every parameter map with non-empty names, every trace", "why_tests_cant": "unbounded formulas", "anchors": ["src/transducer.cpp:get_param", "src/stl_atom.cpp:constant_transducer"]}
{"id": "C34", "title": "semantics and interpolation settings accept exactly the documented names", "statement": "set_semantics accepts exactly SPACE, LEFT_TIME, RIGHT_TIME and set_interpol exactly PREVIOUS, LINEAR; the getter returns the name last accepted; any other string throws and changes nothing.", "quantifier": "every string, every history", "why_tests_cant": "infinitely many strings", "anchors": ["include/stl_monitor.h:set_semantics,set_interpol", "include/stl_driver.h", "include/signal.h"]}
{"id": "C35", "title": "a monitor is independent of its driver", "statement": "get_monitor(id) copies formula, data, parameters and settings: later operations on the driver do not change the monitor's results and vice versa; for an undefined id the monitor has no formula and eval_rob returns its stored value without evaluating.", "quantifier": "every driver state, every pair of later histories", "why_tests_cant": "histories are unbounded", "anchors": ["src/stl_driver.cpp:get_monitor", "include/transducer.h:clone"]}
{"id": "C36", "title": "copies of a monitor evaluate identically", "statement": "A copied (or moved) monitor gives the same results as the original from then on under the same calls, and operations on one do not affect the other.", "quantifier": "every monitor state and later history", "why_tests_cant": "histories are unbounded", "anchors": ["include/stl_monitor.h:STLMonitor(const STLMonitor&)", "include/transducer.h:clone"]}
{"id": "C37", "title": "get_online_rob agrees with a monitor", "statement": "For a defined formula and non-empty data, get_online_rob(id,t0) returns [rob, lower, upper] exactly as a fresh monitor for id evaluated at t0; for an unknown id or empty data it returns an empty list.", "quantifier": "every driver state, id, t0", "why_tests_cant": "histories are unbounded", "anchors": ["src/stl_driver.cpp:get_online_rob"]}
{"id": "C38", "title": "the sign of robustness decides satisfaction", "statement": "If eval_rob(t0) > 0 on a covering trace the formula is satisfied in the Boolean semantics at t0, if < 0 it is violated.", "quantifier": "every formula, covering trace, time", "why_tests_cant": "unbounded formulas, quantifiers over continua", "anchors": ["src/stl_monitor.cpp:eval_rob"]}
{"id": "C39", "title": "robustness is 1-Lipschitz in the trace", "statement": "If two covering traces have the same sample times and every atom's sampled robustness differs by at most d, eval_rob differs by at most d; so |rob| is a margin: perturbing each atom by less than |rob| cannot change satisfaction.", "quantifier": "every formula and pair of traces", "why_tests_cant": "quantifies over all perturbations", "anchors": ["src/stl_monitor.cpp:eval_rob"]}
{"id": "C40", "title": "parsing inverts fully parenthesised printing", "statement": "For every formula tree, the fully parenthesised text of it parses, and the parsed formula is that tree.", "quantifier": "every formula tree", "why_tests_cant": "unbounded trees through an LALR automaton", "anchors": ["src/stl_parser.ypp", "src/stl_parser.cpp", "src/stl_scanner.lpp"]}
{"id": "C41", "title": "operator precedence and associativity", "statement": "Without parentheses: unary temporal operators bind tightest, then until, =>, or, and, with `not` extending as far right as possible relative to operators declared tighter; equal-level operators group as the grammar's declarations say; signal arithmetic + - * share one level and group to the left.", "quantifier": "every choice of operand formulas", "why_tests_cant": "operands are arbitrary formulas", "anchors": ["src/stl_parser.ypp:precedence,stl_formula"]}
{"id": "C42", "title": "the scanner splits text as documented", "statement": "Tokens are maximal munches; blanks, newlines and # comments between tokens change nothing; keyword synonyms give the same token; an identifier is classified by the driver's tables (formula, parameter, signal, test, new) in that order.", "quantifier": "every input text", "why_tests_cant": "infinitely many texts", "anchors": ["src/stl_scanner.lpp"]}
{"id": "C43", "title": "signal declarations number signals consecutively", "statement": "After any sequence of declarations the signal indices are exactly 1..n in order of first declaration; redeclaring a signal changes nothing.", "quantifier": "every declaration sequence", "why_tests_cant": "unbounded histories", "anchors": ["src/stl_parser.ypp:signal_new"]}
{"id": "C44", "title": "get_signals_names lists signals in declaration order", "statement": "get_signals_names returns the declared names separated by single spaces, in index order.", "quantifier": "every signal map produced by declarations", "why_tests_cant": "unbounded", "anchors": ["src/tools.cpp:signal_map_to_string"]}
{"id": "C45", "title": "a failed parse leaves earlier definitions intact", "statement": "parse_string returning false leaves formulas, parameters and signals as they were before the call.", "quantifier": "every driver state and text", "why_tests_cant": "infinitely many texts", "anchors": ["src/stl_driver.cpp:parse_string", "src/stl_parser.ypp"]}
{"id": "C46", "title": "a formula reference is a snapshot", "statement": "Using a defined formula's name inside another formula stands for a copy of its definition at that moment; later redefinition or parameter changes of the original's nodes do not alter it other than through the parameter map.", "quantifier": "every driver history", "why_tests_cant": "unbounded histories", "anchors": ["src/stl_parser.ypp:PHI_ID", "include/transducer.h:clone"]}
{"id": "C47", "title": "dumped traces read back unchanged", "statement": "dump_trace_file followed by read_trace_file restores the same rows.", "quantifier": "every trace", "why_tests_cant": "infinitely many traces", "anchors": ["src/stl_driver.cpp:dump_trace_file", "src/tools.cpp:read_trace"]}
{"id": "C48", "title": "compute_boolean is the indicator of positivity", "statement": "compute_boolean(y)(t) is 1 where y(t) > 0 and 0 where y(t) <= 0.", "quantifier": "every signal, every time", "why_tests_cant": "continuum of times", "anchors": ["src/robustness.cpp:compute_boolean"]}
{"id": "C49", "title": "left time robustness measures time since the last change of truth", "statement": "compute_left_time_rob(y)(t) is positive exactly where y is true, and its magnitude is the time elapsed since the truth value last changed (or since the beginning), up to the fixed offset 1e-14.", "quantifier": "every signal, every time", "why_tests_cant": "continuum of times", "anchors": ["src/robustness.cpp:compute_left_time_rob"]}
{"id": "C50", "title": "right time robustness measures time to the next change of truth", "statement": "compute_right_time_rob(y) terminates and its magnitude at t is the time until the truth value next changes.", "quantifier": "every signal, every time", "why_tests_cant": "continuum of times; silent undefined behaviour", "anchors": ["src/robustness.cpp:compute_right_time_rob"]}
{"id": "C51", "title": "test queue bookkeeping", "statement": "nb_test_total counts every add_stl_test call, tests are queued only when a trace test is open, and run_tests consumes exactly the front trace test, counting positives and raising the error flag iff some is_error test is positive.", "quantifier": "every sequence of queue operations", "why_tests_cant": "unbounded histories", "anchors": ["src/stl_driver.cpp:add_stl_test,add_trace_test,run_tests"]}
{"id": "C52", "title": "rand_trace_data has the requested shape", "statement": "rand_trace_data(m,n) returns m rows of n+1 values, times 0, 0.1, 0.2, ... strictly increasing, values in [0,1], for every behaviour of rand(); it can be fed to add_sample row by row.", "quantifier": "every m,n and every rand() outcome", "why_tests_cant": "random outcomes cannot be enumerated", "anchors": ["src/tools.cpp:rand_trace_data"]}
{"id": "C53", "title": "arithmetic expressions in atoms are evaluated exactly", "statement": "An atom comparing expressions built from + and - of signals and constants has the robustness given by evaluating the expression on the interpolated signals at every time of the horizon.", "quantifier": "every linear expression, trace, time", "why_tests_cant": "continuum of times", "anchors": ["src/signal_expr.cpp"]}
{"id": "C54", "title": "horizon propagation", "statement": "After set_horizon(s,e) every subformula's evaluation interval is its parent's shifted by the operator's bounds, whatever state the tree was in before; repeating the call changes nothing.", "quantifier": "every formula tree and prior state", "why_tests_cant": "unbounded trees", "anchors": ["src/transducer.cpp:init_horizon", "include/transducer.h:set_horizon"]}
{"id": "C55", "title": "the BigM bound reads back what was written", "statement": "get_BigM returns the value given to set_BigM.", "quantifier": "every double", "why_tests_cant": "infinitely many values", "anchors": ["include/signal.h:set_BigM,get_BigM"]}
{"id": "C56", "title": "clearing or copying a driver releases each formula exactly once", "statement": "No sequence of parse, test queueing, clear, copy and destruction frees a formula twice.", "quantifier": "every operation history", "why_tests_cant": "memory errors depend on history and may be silent", "anchors": ["src/stl_driver.cpp:clear", "include/stl_driver.h:~stl_test"]}
{"id": "C57", "title": "setting an undeclared driver parameter changes no evaluation", "statement": "STLDriver::set_param(p,v) with p not declared leaves the result of every later get_online_rob unchanged.", "quantifier": "every driver state, every string p, every v, every formula and time", "why_tests_cant": "every string is a possible name", "anchors": ["src/stl_driver.cpp:set_param", "include/signal_expr.h:constant_transducer::set_param"]}
{"id": "C58", "title": "run_tests agrees with get_online_rob", "statement": "After get_online_rob has returned robustness r for a formula of the driver, a test on that formula that is added and run at once is counted as positive exactly when r > 0.", "quantifier": "every driver, data set and formula", "why_tests_cant": "all data sets and formulas; the stale read position is silent", "anchors": ["src/stl_driver.cpp:run_tests", "include/signal_expr.h:clone"]}
{"id": "C59", "title": "append_sample with a slope, and append_signal", "statement": "Building a signal from nothing with append_sample(t,v,d): up to its end the signal is the interpolation of the accepted (t,v) pairs, whatever slopes were given; the slope stored for the last accepted sample is the one given for it with LINEAR and 0 with PREVIOUS. append_signal is the same sequence of calls on the samples of its argument, so it copies a signal onto an empty one.", "quantifier": "every finite list of (time,value,slope) triples, every query time, both interpolation modes", "why_tests_cant": "unbounded sequences of calls over a continuum of values", "anchors": ["src/signal.cpp:appendSample", "src/signal.cpp:appendSignal", "src/pybind11/main.cpp:append_sample"]}
{"id": "C60", "title": "parse_string always answers", "statement": "For every driver and every text parse_string returns true or false: the parsing loop stops after at most 10*length+3 rounds, and no action reads a member of the semantic value union other than the one stored for its symbol.", "quantifier": "every driver and every text", "why_tests_cant": "infinitely many texts; a wrong union member is silent", "anchors": ["src/stl_parser.cpp:parse", "src/stl_driver.cpp:parse_string"]}
{"id": "C61", "title": "a text of several statements does them in order", "statement": "For every text made of an optional signal declaration followed by definitions, parameter settings and trace tests, written with any blanks and comments and any choice of parentheses and operator synonyms, and using only names known at that point: parse_string returns true, and the driver afterwards is the one obtained by declaring the signals and then calling, statement by statement, the corresponding operations (store the formula, set the parameter, add_trace_test, add_stl_test).", "quantifier": "every driver, every list of statements, every way of writing it", "why_tests_cant": "unbounded texts; the scanner reads ahead with the tables as they are before the pending action", "anchors": ["src/stl_parser.ypp:start", "src/stl_parser.cpp:parse", "src/stl_scanner.lpp", "src/stl_driver.cpp:parse_string,add_trace_test,add_stl_test"]}
{"id": "C62", "title": "on a partial trace the bounds are those of the interval semantics", "statement": "After eval_rob on data that ends before the horizon, get_lower_rob() and get_upper_rob() are the bounds of the interval semantics: an atom that is not reached counts as -BigM/BigM; ev takes the known part of its window for the lower bound and is unknown above until the whole window is known; alw the other way round; not swaps the bounds.", "quantifier": "every formula, every trace that begins at or before the evaluation time, every end of data", "why_tests_cant": "exact values on infinitely many traces and formulas; every end of data relative to every window", "anchors": ["src/interval_transducer.cpp", "src/stl_monitor.h:eval_rob"]}
{"id": "C63", "title": "until over two comparisons evaluates to its robustness on a covering trace", "statement": "With SPACE semantics and LINEAR interpolation, eval_rob(t) of `l until_[a,b] r`, where l and r are comparisons, returns on every trace that covers [t, t+b] the supremum over u in [t+a, t+b] of the smaller of r at u and the infimum of l over [t,u]; get_lower_rob() and get_upper_rob() are equal to it.", "quantifier": "every pair of comparisons, every window, every evaluation time, every covering trace with values within +-BigM", "why_tests_cant": "exact values on infinitely many traces; every alignment of the samples of both operands", "anchors": ["src/robustness.cpp:compute_timed_until,compute_until", "src/transducer.cpp:until_transducer", "src/interval_transducer.cpp:until_transducer"]}
{"id": "C64", "title": "the online bounds of until bracket every completion", "statement": "When the rows end before t+b, the bounds that eval_rob(t) leaves for `l until_[a,b] r` over two comparisons bracket the robustness on every covering trace that begins with these rows, and further rows never loosen them.", "quantifier": "every pair of comparisons, every window, every trace that goes beyond t+a, every extension", "why_tests_cant": "quantifies over all futures", "anchors": ["src/interval_transducer.cpp:until_transducer", "src/robustness.cpp:compute_timed_until"]}
{"id": "C65", "title": "a printed formula can be read back", "statement": "The text that print, display_formula and repr write for a formula is accepted by parse_string as the definition of a new name, and the formula it defines is the one printed: a monitor for it returns the same robustness and bounds on every trace.", "quantifier": "every formula and every driver that knows its names", "why_tests_cant": "all shapes of formulas and all constants; the loss shows only for particular nestings and particular digits", "anchors": ["include/transducer.h:print", "include/signal_expr.h:print", "src/interval.cpp:to_string", "src/stl_scanner.lpp", "src/stl_parser.ypp"]}
{"id": "C66", "title": "exactly the texts of the grammar are accepted", "statement": "parse_string returns true only for texts whose tokens, up to the end, form a sequence of statements of the grammar: signal and parameter declarations, tests, and definitions of names that are not known yet. A text that is one definition of a new name is accepted exactly when what follows := is a formula of the grammar that uses known names; then the name stands for that formula, and in every other case the text is rejected.", "quantifier": "every driver and every text, whatever is written in it", "why_tests_cant": "all texts; a wrong entry in a parser table accepts or rejects only texts that reach that entry", "anchors": ["src/stl_parser.ypp:151-522", "src/stl_parser.cpp:yypact_", "src/stl_scanner.lpp", "src/stl_driver.cpp:parse_string"]}
{"id": "C67", "title": "formulas with until outside temporal operators evaluate to their robustness", "statement": "For a formula built with not, and, or, => from until-free formulas and from `l until_[a,b] r` with until-free operands and a < b, eval_rob(t) on a trace that reaches the horizon returns the robustness, and lower_rob and upper_rob are equal to it.", "quantifier": "every such formula, whatever temporal operators occur in the operands, every covering trace, every evaluation time", "why_tests_cant": "all formulas, all traces; the failing cases need an operand at exactly the saturation value", "anchors": ["src/interval_transducer.cpp:until_transducer", "src/robustness.cpp:compute_timed_until", "src/robustness.cpp:compute_and"]}
{"id": "C68", "title": "the bounded members of Signal give the extremum of the window", "statement": "The members Signal::compute_bounded_eventually(x, a) and compute_bounded_globally(x, a), with 0 < a and a at most the length of x, return a signal on the interval of x whose value at t is the greatest, respectively least, value of x in [t, t+a].", "quantifier": "every well-formed signal, every window length, every time", "why_tests_cant": "all signals and windows; unlike the free functions these members sit on no path the test-suite takes", "anchors": ["src/robustness.cpp:240-266", "src/robustness.cpp:309-329", "src/robustness.cpp:414-536", "src/robustness.cpp:539-652"]}
{"id": "C69", "title": "a cleared driver behaves as a new one", "statement": "After clear(), parse_string and the calls after it have the effect they have on a new driver with the same semantics and interpolation.", "quantifier": "every driver state and every text", "why_tests_cant": "all histories before clear() and all later texts; the difference shows only if signals are declared in another order or data was loaded", "anchors": ["src/stl_driver.cpp:clear", "include/stl_driver.h:STLDriver"]}
{"id": "C70", "title": "equivalent formulas evaluate to the same number", "statement": "Two formulas that have the same robustness on every trace are evaluated to the same number by eval_rob, with the same lower_rob and upper_rob. In particular moving negations inwards (double negation, De Morgan, not ev = alw not, not alw = ev not, not (l > r) = l < r) changes nothing.", "quantifier": "every pair of equivalent formulas, every trace, every interval", "why_tests_cant": "all formulas and traces; the cases where commuting or repeating an operand matters need a particular crossing of the operands", "anchors": ["src/transducer.cpp:not_transducer", "src/transducer.cpp:implies_transducer", "src/transducer.cpp:ev_transducer", "src/transducer.cpp:alw_transducer", "src/stl_atom.cpp:compute_robustness", "src/robustness.cpp:compute_and"]}
{"id": "C71", "title": "evaluation returns no new numbers", "statement": "Every number that eval_rob, lower_rob, upper_rob and get_signal give for a formula is, up to sign, the margin of one of its comparisons in one of the rows of the data. (Robustness is built from margins by minimum, maximum and negation only.)", "quantifier": "every formula, with until, every trace, covering or not, every interval", "why_tests_cant": "all formulas, traces and intervals; a value produced by interpolation, by a fill value or by an uninitialised slope shows only for particular lengths", "anchors": ["src/signal.cpp:resize", "src/robustness.cpp:compute_and", "src/robustness.cpp:compute_or", "src/robustness.cpp:compute_timed_eventually", "src/robustness.cpp:compute_timed_until", "src/stl_atom.cpp:compute_robustness", "src/interval_transducer.cpp:until_transducer"]}
{"id": "C72", "title": "only differences of times matter", "statement": "Adding the same number to the time of every sample and to both times given to eval_rob changes neither the number eval_rob returns, nor the exception or fault it ends with, nor lower_rob and upper_rob, and get_signal returns the same signal that much later or earlier.", "quantifier": "every formula, every trace, covering or not, every evaluation interval, every shift, all semantics and interpolations", "why_tests_cant": "all traces, intervals and rational shifts; the code compares absolute times with lengths of windows in a few places, which shows only for particular combinations of end time and window", "anchors": ["src/stl_atom.cpp:compute_robustness", "src/signal.cpp:resize", "src/signal.cpp:shift", "src/robustness.cpp:compute_timed_eventually", "src/robustness.cpp:compute_timed_until", "src/stl_driver.cpp:eval_rob"]}
{"id": "C73", "title": "results are in the units of the data", "statement": "With space robustness, multiplying all sampled values, all constants in comparisons and parameters used there, and the number set by set_BigM by one positive number multiplies what eval_rob, lower_rob, upper_rob and get_signal give by this number; an evaluation that fails fails in the same way.", "quantifier": "every formula without products of expressions, until included, every trace, every evaluation interval, every positive factor", "why_tests_cant": "all formulas, traces and rational factors; a hidden absolute constant, tolerance or fill value that is no zero shows only near its own magnitude", "anchors": ["src/stl_atom.cpp:compute_robustness", "src/signal.cpp:resize", "src/signal.cpp:simplify", "src/robustness.cpp:compute_and", "src/robustness.cpp:compute_or", "src/robustness.cpp:compute_timed_until", "src/interval_transducer.cpp:until_transducer"]}
{"id": "C74", "title": "dump writes the robustness of every formula", "statement": "STLDriver::dump writes, for each formula of the driver, a file <name>.out with the samples of its robustness signal over the driver's data under its current parameters, at the time it was last evaluated at.", "quantifier": "every driver, every history of calls, every until-free formula and covering trace", "why_tests_cant": "all histories, formulas and traces; the call reuses the state that earlier evaluations left in the formula (read positions, signals of leaves), so what it writes depends on the history", "anchors": ["src/stl_driver.cpp:dump", "include/signal.h:dumpFile", "src/transducer.cpp:init_horizon", "src/stl_atom.cpp:compute_robustness"]}
{"id": "C75", "title": "larger margins never give a smaller result", "statement": "If two traces have rows at the same times and every comparison that occurs positively has at least as large a margin at each row of the second trace (at most as large for comparisons under an odd number of negations), then eval_rob on the second trace returns at least what it returns on the first; the bounds get_lower_rob and get_upper_rob are ordered likewise.", "quantifier": "every formula, every pair of traces with equal row times, every evaluation time", "why_tests_cant": "pairs of traces over arbitrary rationals and arbitrary nested formulas; the result is piecewise linear in the values with exponentially many pieces, and the exception is a set of traces of measure zero", "anchors": ["src/stl_monitor.cpp:eval_rob", "src/robustness.cpp:compute_max_rob", "src/robustness.cpp:compute_min_rob", "include/stl_monitor.h:get_lower_rob", "include/stl_monitor.h:get_upper_rob"]}
{"id": "C76", "title": "evaluation in doubles gives the results of exact arithmetic", "statement": "eval_rob computes in double precision, rounding every sum, difference, product and quotient. Its result nevertheless agrees with that of exact arithmetic up to a small error: if the trace and the margins of the comparisons are doubles of size at most M, the returned number is within M/1000 of the exact one.", "quantifier": "every formula, every trace of doubles, every evaluation time, both interpolations", "why_tests_cant": "which inputs suffer from cancellation cannot be told from their size; the failing traces look like any other, and the exact value is not available to a test in doubles", "anchors": ["src/stl_monitor.cpp:eval_rob", "src/signal.cpp:timeIntersect", "src/robustness.cpp:compute_and", "src/robustness.cpp:compute_bounded_eventually", "include/signal.h:Sample"]}
{"id": "C77", "title": "evaluation in doubles makes up no numbers", "statement": "On a trace of doubles, whatever rounding does to times and values, the number returned by eval_rob is the margin of one of the comparisons of the formula at one of the rows, as the code computes it in doubles, up to sign, or one of B, -B and 0 (B is BigM). The same holds for lower_rob, upper_rob and every value of the robustness signal.", "quantifier": "every formula, every trace of doubles, every evaluation time that is a double, both interpolations", "why_tests_cant": "which rows are selected depends on the rounding of every sum of a time and a bound; a test cannot sweep these, nor tell a made up value from a value of another row", "anchors": ["src/stl_monitor.cpp:eval_rob", "src/robustness.cpp:compute_bounded_eventually", "src/robustness.cpp:compute_until", "src/signal.cpp:resize", "src/atom_transducer.cpp:compute_robustness"]}
{"id": "C78", "title": "results in doubles are correctly rounded", "statement": "On a trace of doubles that covers the formula, the number returned by eval_rob, computed in doubles, is the exact STL robustness rounded once to the nearest double: its error is at most half a unit in the last place, however many operations the evaluation makes, and its sign is that of the exact robustness, so that a positive result means satisfaction and a negative one violation.", "quantifier": "every until-free formula over comparisons of signals and constants, every covering trace of doubles, both interpolations", "why_tests_cant": "the exact robustness is not available to a test that itself computes in doubles, and the errors that would have to be found are in the last digit", "anchors": ["src/stl_monitor.cpp:eval_rob", "src/stl_atom.cpp:compute_robustness", "src/robustness.cpp:compute_timed_eventually", "src/robustness.cpp:compute_and", "src/signal.cpp:resize"]}
{"id": "C79", "title": "LEFT_TIME evaluation of ev and alw over a comparison", "statement": "With the LEFT_TIME semantics and LINEAR interpolation, eval_rob of ev_[a,b] or alw_[a,b] over a comparison, on a trace that covers the window, returns the supremum (ev) or infimum (alw) over the window of the left time robustness of the comparison in the data: the time since its truth last changed, plus 1e-14, negated where it is false. lower_rob and upper_rob are equal to the returned value.", "quantifier": "every comparison of signals, constants or affine expressions whose margin is not zero at a row or where the window opens, every window with a < b, every covering trace", "why_tests_cant": "the value depends on zero crossings between the samples, which a test can only place by hand, and the supremum is over a continuum of times and over every position of the window in the trace", "anchors": ["src/stl_monitor.cpp:eval_rob", "src/stl_atom.cpp:compute_robustness", "src/robustness.cpp:compute_left_time_rob", "src/robustness.cpp:compute_timed_eventually", "src/interval_transducer.cpp:compute_robustness"]}
{"id": "C80", "title": "LINEAR evaluation of formulas with until below temporal operators", "statement": "With LINEAR interpolation, a number returned by eval_rob for a formula with until, on a trace that covers everything the formula looks at, is the robustness of the formula on the linearly interpolated trace.", "quantifier": "every formula with until at any place, every covering trace with comparisons within the bound, every evaluation time t >= 0", "why_tests_cant": "the inner until is computed as a continuous signal over an interval of times that starts before its evaluation interval and ends after it; its pieces come from crossings between the samples, and the claim is about all of these times at once", "anchors": ["src/stl_monitor.cpp:eval_rob", "src/transducer.cpp:compute_robustness", "src/robustness.cpp:compute_timed_until", "src/robustness.cpp:compute_until"]}
{"id": "C81", "title": "Evaluating a formula with until on a covering trace returns a number", "statement": "eval_rob of a formula with until (intervals of positive length) returns a number, and is not undefined behaviour, whenever the trace covers everything the formula looks at, with LINEAR and with PREVIOUS interpolation. With the conditions of C80 and C22 the number is the robustness.", "quantifier": "every formula with until at any place, every covering trace, every evaluation interval [s,e] with 0 <= s <= e, both interpolations", "why_tests_cant": "every signal on the way must be non-empty and must overlap the next one in more than a point, in all three computations that eval_rob performs; whether this holds depends on the position of the rows relative to every window", "anchors": ["src/stl_monitor.cpp:eval_rob", "src/interval_transducer.cpp:compute_lower_rob", "src/interval_transducer.cpp:compute_upper_rob", "src/robustness.cpp:compute_timed_until", "src/stl_atom.cpp:compute_robustness"]}
{"id": "C82", "title": "Looking at the test queue", "statement": "After any sequence of add_trace_test, add_stl_test, run_tests, run_next_trace_test and pop_next_trace_test calls on a new driver, trace_test_queue_empty, get_next_trace_test, get_next_trace_test_env, get_next_stl_test and get_next_formula answer as a first-in-first-out queue of trace tests does, with a null pointer or an empty string when there is nothing to show. The last line of the file written by dump_test_log_file gives at most as many positive tests as tests.", "quantifier": "every sequence of calls on a new driver, every test name, formula and trace", "why_tests_cant": "the answers depend on the whole history of calls, and an accessor that reads the front of an empty deque often returns something plausible in a test", "anchors": ["include/stl_driver.h:get_next_formula", "include/stl_driver.h:get_next_stl_test", "include/stl_driver.h:get_next_trace_test", "include/stl_driver.h:get_next_trace_test_env", "include/stl_driver.h:pop_next_trace_test", "src/stl_driver.cpp:dump_test_log_file"]}
{"id": "C83", "title": "A result reported as complete is final", "statement": "If after an evaluation at time t get_end_complete of the formula returns t or more, then appending rows does not change what an evaluation at t returns.", "quantifier": "every monitor, until-free formula, partial trace and rows appended to it, both interpolation modes", "why_tests_cant": "a test appends particular rows; a result that is wrongly reported as final only changes for rows that hit the part of the window nobody has looked at", "anchors": ["src/transducer.cpp:get_end_complete", "src/transducer.cpp:get_end_complete_low", "src/transducer.cpp:get_end_complete_up"]}
{"id": "C84", "title": "What is written does not depend on what was written before", "statement": "Points, samples, sequences, signals, formulas, monitors, traces and drivers written one after the other to a stream give the texts that each of them gives on a new stream.", "quantifier": "every sequence of items, written with operator<<, print_point, print_sample, display_formula, display_signal_names, print_trace or STLDriver::print", "why_tests_cant": "a test looks at the text of one call; the format of the stream is state that only shows in later calls and for numbers with many digits", "anchors": ["src/signal.cpp:operator<<", "include/signal.h:print_sample", "include/signal.h:print_point", "include/stl_monitor.h:display_formula", "include/stl_monitor.h:operator<<", "src/stl_driver.cpp:print", "src/stl_driver.cpp:print_trace"]}
{"id": "C85", "title": "removeInf leaves no infinite part", "statement": "After removeInf no sample of the signal has an infinite value or slope, and at every time of the domain the signal has the value it had or none.", "quantifier": "every ordered signal and every positive BigM", "why_tests_cant": "tests use signals whose infinite samples are at the end and look at the samples, not at the values the remaining ones imply", "anchors": ["src/signal.cpp:removeInf"]}
{"id": "C86", "title": "The target of a signal operation may be one of its operands", "statement": "z.compute_op(x, y) leaves in z what the call leaves in a new signal, also when z is x or y, and changes no other signal.", "quantifier": "compute_not, compute_and, compute_or, compute_implies, compute_boolean, both time robustnesses, compute_globally, the bounded and the timed operations, on all signals and all choices of target and operands", "why_tests_cant": "tests write into new signals; aliasing is a property of all pairs of references, and where it is undefined behaviour a test may still pass", "anchors": ["src/robustness.cpp:compute_not", "src/robustness.cpp:compute_and", "src/robustness.cpp:compute_or", "src/robustness.cpp:compute_implies", "src/robustness.cpp:compute_timed_eventually", "src/pybind11/main.cpp:compute_not"]}
{"id": "C87", "title": "print_monitor writes the formula phi and the lower bound of its robustness", "statement": "print_monitor(d) writes the formula named phi of the driver d, as it was parsed, and the lower bound of its robustness that get_online_rob returns for the samples of d; the call is never undefined behaviour.", "quantifier": "every driver and every value of BigM", "why_tests_cant": "a test calls it on a driver that has a formula of this name, and looks at the formula; the number looks like an initial bound", "anchors": ["src/pybind11/main.cpp:print_monitor", "src/stl_driver.cpp:get_monitor"]}
{"id": "C88", "title": "read_point reads a point from any input", "statement": "read_point writes the two numbers that come next on the standard input, 0 for what is not a number, and is not undefined behaviour, whatever the input is and whatever was read before.", "quantifier": "every text on the standard input and every number of calls", "why_tests_cant": "a test types two numbers; what happens at the end of the input or after a wrong character depends on variables that were never assigned", "anchors": ["src/pybind11/main.cpp:read_point", "include/signal.h:print_point"]}
{"id": "C89", "title": "update_robustness returns the robustness", "statement": "Wherever compute_robustness returns a number, update_robustness called in the same state returns the same number.", "quantifier": "every formula in every state, all data, parameters, semantics and interpolations", "why_tests_cant": "nothing in the library calls the function yet; a test of a conjunction or comparison sees no difference", "anchors": ["src/update_transducer.cpp:update_robustness", "include/transducer.h:unary_transducer"]}
{"id": "C90", "title": "print(data, n) writes the first n rows", "statement": "print(data, n) writes the lines that print writes for the first n rows of data, and all of them when there are no more than n.", "quantifier": "every trace, every int n and every format of cout", "why_tests_cant": "a test asks for a few rows; the counter is compared after the first row is written", "anchors": ["src/tools.cpp:print"]}
{"id": "C91", "title": "read_trace reads the numbers of a file", "statement": "From a file of lines of decimal numbers, with or without exponent and with white space around them, read_trace gives one row per line with the numbers of the line, whether or not the last line ends with a line break.", "quantifier": "every file of such lines, of any length and with any white space", "why_tests_cant": "test files are written by one program; the white space and the line ends of other programs do not occur", "anchors": ["src/tools.cpp:read_trace", "src/stl_driver.cpp:read_trace_file"]}
