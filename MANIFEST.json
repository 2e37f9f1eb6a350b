{
 "claims": [
  {
   "property": "C01",
   "status": "proved",
   "theorems": [
    "STLRom.Props.C01_append",
    "STLRom.Props.C01_append_points",
    "STLRom.Props.C01_append_continuous"
   ],
   "note": "doubles as rationals"
  },
  {
   "property": "C02",
   "status": "proved",
   "theorems": [
    "STLRom.Props.C02_append_one",
    "STLRom.Props.C02_append_all"
   ],
   "note": "doubles as rationals"
  },
  {
   "property": "C03",
   "status": "proved",
   "theorems": [
    "STLRom.Props.C03_not"
   ],
   "note": "doubles as rationals"
  },
  {
   "property": "C04",
   "status": "partial",
   "theorems": [
    "STLRom.Props.C04_and_partial",
    "STLRom.Props.C04_and_all_partial",
    "STLRom.Props.C04_and_point_partial",
    "STLRom.Props.C04_and_function_partial",
    "STLRom.Props.C04_false"
   ],
   "note": "missing: a jump exactly at the closing time; the full claim is false there (C04_false)"
  },
  {
   "property": "C05",
   "status": "partial",
   "theorems": [
    "STLRom.Props.C05_or_partial",
    "STLRom.Props.C05_or_all_partial",
    "STLRom.Props.C05_or_point_partial",
    "STLRom.Props.C05_or_function_partial",
    "STLRom.Props.C05_false"
   ],
   "note": "as C04"
  },
  {
   "property": "C06",
   "status": "partial",
   "theorems": [
    "STLRom.Props.C06_implies_partial",
    "STLRom.Props.C06_implies_all_partial",
    "STLRom.Props.C06_implies_point_partial",
    "STLRom.Props.C06_false"
   ],
   "note": "as C04"
  },
  {
   "property": "C07",
   "status": "proved",
   "theorems": [
    "STLRom.Props.C07_de_morgan"
   ],
   "note": "includes the faulting inputs"
  },
  {
   "property": "C08",
   "status": "proved",
   "theorems": [
    "STLRom.Props.C08_simplify"
   ],
   "note": ""
  },
  {
   "property": "C09",
   "status": "partial",
   "theorems": [
    "STLRom.Props.C09_resize_partial",
    "STLRom.Props.C09_resize_pad_partial",
    "STLRom.Props.C09_resize_inverted",
    "STLRom.Props.C09_false"
   ],
   "note": "false when the last sample is sloped and lies before s: the slope is lost (C09_false)"
  },
  {
   "property": "C10",
   "status": "proved",
   "theorems": [
    "STLRom.Props.C10_shift"
   ],
   "note": ""
  },
  {
   "property": "C11",
   "status": "partial",
   "theorems": [
    "STLRom.Props.C11_eventually_partial",
    "STLRom.Props.C11_false"
   ],
   "note": "missing: compute_eventually on a target that already holds samples, where it is false (C11_false)"
  },
  {
   "property": "C12",
   "status": "partial",
   "theorems": [
    "STLRom.Props.C12_timed_eventually_partial",
    "STLRom.Props.C12_false",
    "STLRom.Props.C12_closing_false"
   ],
   "note": "missing: sloped last sample before the first cut (C12_false), value at the closing time when the signal jumps exactly there (C12_closing_false); false in both"
  },
  {
   "property": "C13",
   "status": "partial",
   "theorems": [
    "STLRom.Props.C13_timed_globally_partial",
    "STLRom.Props.C13_false"
   ],
   "note": "as C12"
  },
  {
   "property": "C14",
   "status": "proved",
   "theorems": [
    "STLRom.Props.C14_duality"
   ],
   "note": "includes the faulting inputs"
  },
  {
   "property": "C15",
   "status": "partial",
   "theorems": [
    "STLRom.Props.C15_until_partial",
    "STLRom.Props.C15_false",
    "STLRom.Props.C15_closing_false"
   ],
   "note": "False in general: a falling piece of y that began before a rising piece of x is misread (C15_false), and a jump of y exactly at the common end is not seen (C15_closing_false). Proved for operands with strictly increasing times where neither occurs: every time, both the library function and the method on a fresh target. Not covered: operands with several samples at one time."
  },
  {
   "property": "C16",
   "status": "partial",
   "theorems": [
    "STLRom.Props.C16_timed_until_partial",
    "STLRom.Props.C16_false"
   ],
   "note": "False in general: the window length is compared with an end time instead of a duration, undefined behaviour for signals that begin late (C16_false); plus what C15 misses. Proved under the hypotheses of C15, begin time of x at least 0, a window that fits or reaches past the common end time, and no slope lost by cutting (CutSafe), for every time before the end of the result."
  },
  {
   "property": "C17",
   "status": "partial",
   "theorems": [
    "STLRom.Props.C17_partial",
    "STLRom.Props.C17_left_partial",
    "STLRom.Props.C17_left_atom_partial",
    "STLRom.Props.C17_time_false",
    "STLRom.Props.C17_false",
    "STLRom.Props.C17_late_false",
    "STLRom.Props.C17_until_false",
    "STLRom.Props.C17_left_false",
    "STLRom.Props.C17_right_false",
    "STLRom.Props.C17_left_first_false",
    "STLRom.Props.C17_left_late_false"
   ],
   "note": "Every until-free formula, any rows (also partial or empty), any interpolation: space semantics returns a number, no rows or Boolean semantics throws. until is undefined behaviour on one row or when the data stops inside the window; the two time semantics are undefined behaviour on a comparison at one time. An and, or, => above an until is undefined behaviour while a bound of an operand is still trivial (C17_until_false). LEFT_TIME: every until-free formula returns a number, on partial traces too, if every comparison is evaluated over a proper interval with data and every ev has a window reaching beyond 0 (C17_left_partial); for one comparison this is exact, otherwise undefined behaviour (C17_left_atom_partial). ev_[0,0] x > 0 over a proper interval, and a sum without a row in the window, are undefined behaviour on covering traces (C17_left_false). LEFT_TIME is undefined behaviour for every formula, until included, whose first comparison is evaluated at a single time (C17_left_first_false), and for every evaluation at or after the last row (C17_left_late_false). RIGHT_TIME: every evaluation of every formula on any data is undefined behaviour (C17_right_false). Missing: until in LEFT_TIME."
  },
  {
   "property": "C18",
   "status": "proved",
   "theorems": [
    "STLRom.Props.C18_monitor",
    "STLRom.Props.C18_driver"
   ],
   "note": ""
  },
  {
   "property": "C19",
   "status": "proved",
   "theorems": [
    "STLRom.Props.C19_shape",
    "STLRom.Props.C19_monitor"
   ],
   "note": "programs over one driver and any number of monitors"
  },
  {
   "property": "C20",
   "status": "partial",
   "theorems": [
    "STLRom.Props.C20_partial",
    "STLRom.Props.C20_boolean_partial",
    "STLRom.Props.C20_ret_partial",
    "STLRom.Props.C20_false"
   ],
   "note": "False in general (C20_false: a lost slope makes eval_rob return 3 instead of 23/6). Proved for formulas in which no operand of a temporal operator runs as one sloped line, without a sample, from before the end of the first window to the end of its interval (NoLongSlope; Boolean operators always have a sample there, comparisons one per row); until-free fragment, atoms over signals and constants or affine expressions. Returning a number at all also needs Untrimmed (C20_ret_partial drops it). Without any condition on the rows for formulas in which every temporal operator inside another one has a Boolean operand (C20_boolean_partial)."
  },
  {
   "property": "C21",
   "status": "partial",
   "theorems": [
    "STLRom.Props.C21_partial",
    "STLRom.Props.C21_boolean_partial",
    "STLRom.Props.C21_false",
    "STLRom.Props.C21_previous_partial",
    "STLRom.Props.C21_nested_previous_partial",
    "STLRom.Props.C21_previous_false"
   ],
   "note": "False in general (C21_false). Proved for formulas in which no operand of a temporal operator runs as one sloped line, without a sample, from before the end of the first window to the end of its interval (NoLongSlope; Boolean operators always have a sample there, comparisons one per row) and with Untrimmed; until-free fragment. Without any condition on the rows for formulas all of whose temporal operators have Boolean operands (C21_boolean_partial). With PREVIOUS interpolation: every until-free formula that meets StepOk of C22; all nestings of temporal operators and negations over comparisons of signals and constants without further condition. False for a Boolean operator one of whose operands jumps exactly at t2 (C21_previous_false)."
  },
  {
   "property": "C22",
   "status": "partial",
   "theorems": [
    "STLRom.Props.C22_partial",
    "STLRom.Props.C22_outside_partial",
    "STLRom.Props.C22_false",
    "STLRom.Props.C22_until_partial",
    "STLRom.Props.C22_until_false"
   ],
   "note": "SPACE, until-free. C22_outside_partial: all nestings of temporal operators and negations over comparisons of signals and constants, and Boolean combinations of such formulas, are exact. C22_partial: also and, or, => inside temporal operators as long as no operand jumps exactly at the end of its evaluation interval, and comparisons of expressions with a row at that end. C22_false: such jumps are missed, ev_[0,1] (x>0 and y>0) misses a jump at time 1. C22_until_partial: formulas with until below temporal operators, nested in any way, when a number is returned (C81_previous_partial) and no right operand of an until jumps exactly at the end of its evaluation interval. C22_until_false: an until over two untils, evaluated later than 0, returns a value of an earlier time."
  },
  {
   "property": "C23",
   "status": "proved",
   "theorems": [
    "STLRom.Props.C23_history",
    "STLRom.Props.C23_function",
    "STLRom.Props.C23_repeat"
   ],
   "note": "faults included"
  },
  {
   "property": "C24",
   "status": "proved",
   "theorems": [
    "STLRom.Props.C24_interleaving"
   ],
   "note": ""
  },
  {
   "property": "C25",
   "status": "partial",
   "theorems": [
    "STLRom.Props.C25_partial",
    "STLRom.Props.C25_C26_flat_partial",
    "STLRom.Props.C25_false",
    "STLRom.Props.C28_partial",
    "STLRom.Props.C25_until_false",
    "STLRom.Props.C25_previous_partial",
    "STLRom.Props.C25_C26_shallow_previous_partial",
    "STLRom.Props.C25_previous_false"
   ],
   "note": "Every until-free formula (LINEAR, SPACE), every prefix of a covering trace: the lower bound is at most the final robustness. Conditions (Spec/Interval.lean, `Sound`): every atom whose upper bound is used has been reached by the data; no operand's known part ends within 1e-14 before a window end; no atom is shortened by ev; no bound of an operand runs as one sloped line, without a sample, to the end of what is known. At one time, where temporal operators inside others have Boolean operands, only the first two remain (C25_C26_flat_partial). False without them (C25_false). Missing: until. Below ev the lower bound of an until can be the default value 0 (C25_until_false). With PREVIOUS interpolation: the first three conditions, and no bound of an operand jumps exactly at the last time it is known (StepBound; says nothing about the outermost operators at one time). With one level of temporal operators only the first two remain. False without (C25_previous_false)."
  },
  {
   "property": "C26",
   "status": "partial",
   "theorems": [
    "STLRom.Props.C26_partial",
    "STLRom.Props.C25_C26_flat_partial",
    "STLRom.Props.C26_false",
    "STLRom.Props.C28_partial",
    "STLRom.Props.C26_previous_partial",
    "STLRom.Props.C25_C26_shallow_previous_partial",
    "STLRom.Props.C26_previous_false"
   ],
   "note": "As C25 for the upper bound. False without the conditions (C26_false: an atom the data has not reached gets upper bound -BigM). Missing: until. With PREVIOUS interpolation as C25; false without the conditions (C26_previous_false)."
  },
  {
   "property": "C27",
   "status": "partial",
   "theorems": [
    "STLRom.Props.C27_partial",
    "STLRom.Props.C27_false",
    "STLRom.Props.C27_previous_partial",
    "STLRom.Props.C27_previous_false"
   ],
   "note": "Every until-free formula, every prefix and longer prefix of a covering trace, under the conditions of C25 at both prefixes. False without them (C27_false: a new sample raises an upper bound). Missing: until. With PREVIOUS interpolation as C25; false without the conditions (C27_previous_false)."
  },
  {
   "property": "C28",
   "status": "partial",
   "theorems": [
    "STLRom.Props.C28_partial",
    "STLRom.Props.C20_boolean_partial",
    "STLRom.Props.C28_false",
    "STLRom.Props.C28_previous_partial",
    "STLRom.Props.C28_previous_false"
   ],
   "note": "False in general (C28_false: ev shortens the signal of an atom below it before the bounds are computed). Proved for formulas in which no operand of a temporal operator runs as one sloped line, without a sample, from before the end of the first window to the end of its interval (NoLongSlope; Boolean operators always have a sample there, comparisons one per row) and with Untrimmed; until-free fragment. Without any condition on the rows for formulas in which every temporal operator inside another one has a Boolean operand (C20_boolean_partial). With PREVIOUS interpolation: every until-free formula that meets StepOk of C22 and Untrimmed; false without Untrimmed (C28_previous_false)."
  },
  {
   "property": "C29",
   "status": "proved",
   "theorems": [
    "STLRom.Props.C29_not"
   ],
   "note": "For every formula (until included), every trace, time, interpolation and semantics: evaluating not phi succeeds exactly when evaluating phi does, with the negated value and the negated bounds, swapped. Needs that the bounds' second and third runs of the atoms change nothing the other bound reads (also in the left-time semantics)."
  },
  {
   "property": "C30",
   "status": "partial",
   "theorems": [
    "STLRom.Props.C30_partial",
    "STLRom.Props.C30_previous_partial",
    "STLRom.Props.C30_exact_partial"
   ],
   "note": "Proved for every formula (until included), every semantics, faults included: rows after one past the horizon do not matter (C30_partial); in PREVIOUS mode a row exactly at the horizon is enough, which is the full claim for that mode (C30_previous_partial). In LINEAR mode with a row exactly at the horizon and no common row past it, proved for until-free formulas that meet NoLongSlope and Untrimmed (C30_exact_partial). Missing: the other formulas in that last case (no counterexample found)."
  },
  {
   "property": "C31",
   "status": "proved",
   "theorems": [
    "STLRom.Props.C31_set_get",
    "STLRom.Props.C31_unknown",
    "STLRom.Props.C31_history"
   ],
   "note": ""
  },
  {
   "property": "C32",
   "status": "proved",
   "theorems": [
    "STLRom.Props.C32_set_get",
    "STLRom.Props.C32_unknown",
    "STLRom.Props.C32_history"
   ],
   "note": ""
  },
  {
   "property": "C33",
   "status": "proved",
   "theorems": [
    "STLRom.Props.C33_inline",
    "STLRom.Props.C33_inline_keep"
   ],
   "note": "parameter names are non-empty, as the grammar guarantees"
  },
  {
   "property": "C34",
   "status": "proved",
   "theorems": [
    "STLRom.Props.C34_monitor_semantics",
    "STLRom.Props.C34_monitor_interpol",
    "STLRom.Props.C34_monitor_history",
    "STLRom.Props.C34_driver",
    "STLRom.Props.C34_driver_history",
    "STLRom.Props.C34_static"
   ],
   "note": ""
  },
  {
   "property": "C35",
   "status": "proved",
   "theorems": [
    "STLRom.Props.C35_snapshot",
    "STLRom.Props.C35_monitor_independent",
    "STLRom.Props.C35_driver_independent",
    "STLRom.Props.C35_undefined"
   ],
   "note": "objects are values because clone is a deep copy and evaluation re-aims the data pointers"
  },
  {
   "property": "C36",
   "status": "proved",
   "theorems": [
    "STLRom.Props.C36_copy",
    "STLRom.Props.C36_move",
    "STLRom.Props.C36_independent",
    "STLRom.Props.C36_assign"
   ],
   "note": ""
  },
  {
   "property": "C37",
   "status": "proved",
   "theorems": [
    "STLRom.Props.C37_online",
    "STLRom.Props.C37_empty"
   ],
   "note": "faults included"
  },
  {
   "property": "C38",
   "status": "partial",
   "theorems": [
    "STLRom.Props.C38_partial",
    "STLRom.Props.C38_boolean_partial",
    "STLRom.Props.C38_previous_partial",
    "STLRom.Props.C38_until_partial",
    "STLRom.Props.C38_false",
    "STLRom.Props.C38_until_previous_partial",
    "STLRom.Props.C38_nested_partial",
    "STLRom.Props.C38_linear_nested_partial"
   ],
   "note": "False in general (C38_false). C38_partial: formulas without until in which no operand of a temporal operator runs as one sloped line, without a sample, from before the end of the first window to the end of its interval (NoLongSlope; Boolean operators always have a sample there, comparisons one per row). C38_until_partial: formulas with until outside temporal operators, under the conditions of C67_partial. Without any condition on the rows for formulas in which every temporal operator inside another one has a Boolean operand (C38_boolean_partial). C38_previous_partial: with PREVIOUS interpolation, under the conditions of C22_partial, on intervals too; a number is returned and its sign is right. Also for the formulas of C67 with PREVIOUS interpolation (C38_until_previous_partial). C38_nested_partial: formulas with until below temporal operators, PREVIOUS interpolation, when a number is returned. C38_linear_nested_partial: formulas with until below temporal operators, LINEAR interpolation (C80)."
  },
  {
   "property": "C39",
   "status": "partial",
   "theorems": [
    "STLRom.Props.C39_partial",
    "STLRom.Props.C39_boolean_partial",
    "STLRom.Props.C39_previous_partial",
    "STLRom.Props.C39_false",
    "STLRom.Props.C39_until_partial",
    "STLRom.Props.C39_until_previous_partial",
    "STLRom.Props.C39_nested_partial",
    "STLRom.Props.C39_linear_nested_partial"
   ],
   "note": "False in general (C39_false: lowering one value by 1/100 lowers the result from -3 to below -3.8). Proved for formulas in which no operand of a temporal operator runs as one sloped line, without a sample, from before the end of the first window to the end of its interval (NoLongSlope; Boolean operators always have a sample there, comparisons one per row); until-free fragment; for evaluations that return. Without any condition on the rows for formulas in which every temporal operator inside another one has a Boolean operand (C39_boolean_partial). C39_previous_partial: with PREVIOUS interpolation, under the conditions of C22_partial, for comparisons of arbitrary expressions, on intervals too; both evaluations return a number. With until outside temporal operators, under the conditions of C67, for the value and both bounds (C39_until_partial, C39_until_previous_partial). C39_nested_partial: until below temporal operators, PREVIOUS interpolation, under the conditions of C22_until_partial, for numbers that are returned. C39_linear_nested_partial: until below temporal operators, LINEAR interpolation, under the conditions of C80 and C81; both evaluations return a number."
  },
  {
   "property": "C40",
   "status": "proved",
   "theorems": [
    "STLRom.Props.C40",
    "STLRom.Props.C40_blanks",
    "STLRom.Props.words_f"
   ],
   "note": "Every formula of the grammar with decimal literals, parameters, signals and names of formulas; exponent-form literals are not covered (a literal is an optional minus sign, digits, point, digits)."
  },
  {
   "property": "C41",
   "status": "partial",
   "theorems": [
    "STLRom.Props.C41_partial",
    "STLRom.Props.C41_pairs",
    "STLRom.Props.C41_temporal",
    "STLRom.Props.C41_not",
    "STLRom.Props.C41_arith",
    "STLRom.Props.C41_grammar",
    "STLRom.Props.C41_unambiguous",
    "STLRom.Props.C41_false"
   ],
   "note": "The order claimed fails for `a => b or c`, `a or b or c` and `a => b => c` (C41_false); every other pair is as claimed (C41_partial). C41_grammar gives the meaning of every text with any choice of parentheses."
  },
  {
   "property": "C42",
   "status": "partial",
   "theorems": [
    "STLRom.Props.C42_munch",
    "STLRom.Props.C42_lex",
    "STLRom.Props.C42_lex_unique",
    "STLRom.Props.C42_gap",
    "STLRom.Props.C42_token",
    "STLRom.Props.C42_spacing",
    "STLRom.Props.C42_ident",
    "STLRom.Props.C42_reserved",
    "STLRom.Props.C42_synonyms",
    "STLRom.Props.C42_comment_false",
    "STLRom.Props.C42_high_false",
    "STLRom.Props.C42_point_false",
    "STLRom.Props.C42_minus_false"
   ],
   "note": "For every text and driver: the generated automaton takes the longest prefix matched by a rule, by the earliest rule (C42_munch), the token stream is the documented one and nothing else (C42_lex, C42_lex_unique), spacing and closed comments change nothing (C42_gap, C42_spacing), identifiers and reserved words are classified as stated (C42_ident, C42_reserved, C42_synonyms). False parts: a comment closed by the end of the text instead of a newline is an undefined token (C42_comment_false); a byte above 127 or NUL ends the input (C42_high_false); '.' is a number token without value (C42_point_false); '-3' is one token even after an operand (C42_minus_false)."
  },
  {
   "property": "C43",
   "status": "proved",
   "theorems": [
    "STLRom.Props.C43_numbered",
    "STLRom.Props.C43_history",
    "STLRom.Props.C43_text"
   ],
   "note": "every parse keeps the numbering 1..n in order of first declaration, also a failed one; a declaration in a text adds exactly the new names"
  },
  {
   "property": "C44",
   "status": "partial",
   "theorems": [
    "STLRom.Props.C44_partial",
    "STLRom.Props.C44_false"
   ],
   "note": "Proved for every non-empty list of declared names and every traversal order of the map; with no signals the code reads an array of length 0."
  },
  {
   "property": "C45",
   "status": "partial",
   "theorems": [
    "STLRom.Props.C45_partial",
    "STLRom.Props.C45_false"
   ],
   "note": "false as stated: definitions, parameters and signals reduced before the error stay. Proved: any parse keeps data, settings, the value of every formula, the names of parameters and the numbers of signals that were there before"
  },
  {
   "property": "C46",
   "status": "partial",
   "theorems": [
    "STLRom.Props.C46_partial",
    "STLRom.Props.C46_reference",
    "STLRom.Props.C46_kept",
    "STLRom.Props.C46_apart_partial"
   ],
   "note": "For every later sequence of calls and parses. C46_apart_partial: in the pointer model no two formulas held anywhere share an object, for the histories of C56_partial; after copying a driver with tests the copies share the tests' formulas (C56_copy_false)."
  },
  {
   "property": "C47",
   "status": "partial",
   "theorems": [
    "STLRom.Props.C47_partial",
    "STLRom.Props.C47_false",
    "STLRom.Props.C47_text_false",
    "STLRom.Props.C47_scientific"
   ],
   "note": "Exact result for every trace and every number format that the reader stops at: each row gains one indeterminate value. C47_false: no non-empty trace is restored, whatever the format."
  },
  {
   "property": "C48",
   "status": "partial",
   "theorems": [
    "STLRom.Props.C48_partial",
    "STLRom.Props.C48_nonzero_partial",
    "STLRom.Props.C48_false"
   ],
   "note": "Exact value at every time before the end when no piece starts at 0 and rises; false otherwise (C48_false)."
  },
  {
   "property": "C49",
   "status": "partial",
   "theorems": [
    "STLRom.Props.C49_partial",
    "STLRom.Props.C49_false"
   ],
   "note": "Proved with truth read just after each time, strictly increasing samples and no piece rising from 0; false in general (C49_false)."
  },
  {
   "property": "C50",
   "status": "partial",
   "theorems": [
    "STLRom.Props.C50_partial",
    "STLRom.Props.C50_undefined",
    "STLRom.Props.C50_false"
   ],
   "note": "Undefined behaviour on every signal of positive length (C50_undefined); returns only on one-instant signals."
  },
  {
   "property": "C51",
   "status": "partial",
   "theorems": [
    "STLRom.Props.C51_total",
    "STLRom.Props.C51_closed",
    "STLRom.Props.C51_open_new",
    "STLRom.Props.C51_open_known",
    "STLRom.Props.C51_unknown",
    "STLRom.Props.C51_run",
    "STLRom.Props.C51_run_returns",
    "STLRom.Props.C51_run_undefined",
    "STLRom.Props.C51_empty_undefined",
    "STLRom.Props.C51_false"
   ],
   "note": "Counting, queueing and the effect of a run that returns are proved for every history; that run_tests returns is false for formulas never evaluated before (C51_run_undefined, C51_false) and on an empty queue."
  },
  {
   "property": "C52",
   "status": "proved",
   "theorems": [
    "STLRom.Props.C52_shape",
    "STLRom.Props.C52_times",
    "STLRom.Props.C52_feed"
   ],
   "note": "0.1 is exact in the model."
  },
  {
   "property": "C53",
   "status": "partial",
   "theorems": [
    "STLRom.Props.C53_partial",
    "STLRom.Props.C53_false"
   ],
   "note": "False in general (C53_false: the signal of x+1 ends at the last sample before the interval's end). Proved when the interval is a point or ends at a row."
  },
  {
   "property": "C54",
   "status": "proved",
   "theorems": [
    "STLRom.Props.C54_horizon",
    "STLRom.Props.C54_idempotent",
    "STLRom.Props.C54_model"
   ],
   "note": ""
  },
  {
   "property": "C55",
   "status": "partial",
   "theorems": [
    "STLRom.Props.C55_bigM_partial",
    "STLRom.Props.C55_false",
    "STLRom.Props.C55_large_false"
   ],
   "note": "missing: fractions (truncated) and values outside int (undefined); false there"
  },
  {
   "property": "C56",
   "status": "partial",
   "theorems": [
    "STLRom.Props.C56_partial",
    "STLRom.Props.C56_parse",
    "STLRom.Props.C56_text_partial",
    "STLRom.Props.C56_destroy",
    "STLRom.Props.C56_destroy_monitor",
    "STLRom.Props.C56_clear_false",
    "STLRom.Props.C56_copy_false",
    "STLRom.Props.C56_leak_false"
   ],
   "note": "For every history of parses (accepted or not), test queueing, evaluation, copies, moves and destructions of drivers and monitors in which clear finds no queued test and copied drivers have no tests. False otherwise: clear with a queued test and copies of drivers with tests release a formula twice. Destruction releases everything the driver holds; a redefined formula leaks (C56_leak_false). A text that leaves the driver with the formulas, test entries and queue it had, accepted or rejected at any point, leaves exactly the same objects allocated as before (C56_text_partial)."
  },
  {
   "property": "C57",
   "status": "partial",
   "theorems": [
    "STLRom.Props.C57_undeclared_partial",
    "STLRom.Props.C57_false"
   ],
   "note": "missing: the empty name, where it is false"
  },
  {
   "property": "C58",
   "status": "partial",
   "theorems": [
    "STLRom.Props.C58_false"
   ],
   "note": "False: the clone keeps the read position of the evaluated formula."
  },
  {
   "property": "C59",
   "status": "partial",
   "theorems": [
    "STLRom.Props.C59_append",
    "STLRom.Props.C59_append_signal",
    "STLRom.Props.C59_copy_false"
   ],
   "note": "The closed form of any sequence of append_sample(t,v,d) calls is proved and append_signal is shown to be such a sequence. The last sentence is false of the code: append_signal onto an empty signal loses jumps (LINEAR) and slopes (PREVIOUS); witness in C59_copy_false."
  },
  {
   "property": "C60",
   "status": "proved",
   "theorems": [
    "STLRom.Props.C60_stops",
    "STLRom.Props.C60_total",
    "STLRom.Props.C60_defined"
   ],
   "note": "bound 10*length+3 on the rounds of the bison loop; union members are read as they were stored"
  },
  {
   "property": "C61",
   "status": "proved",
   "theorems": [
    "STLRom.Props.C61_statements",
    "STLRom.Props.C61_declared",
    "STLRom.Props.C61_written"
   ],
   "note": "Names must not be reserved words; a name being defined is looked up before the previous definition has taken effect, as in the code."
  },
  {
   "property": "C62",
   "status": "partial",
   "theorems": [
    "STLRom.Props.C62_partial",
    "STLRom.Props.C62_flat_partial",
    "STLRom.Props.C62_false",
    "STLRom.Props.C62_previous_partial",
    "STLRom.Props.C62_shallow_previous_partial",
    "STLRom.Props.C62_previous_false"
   ],
   "note": "Every until-free formula on every trace that has begun: eval_rob returns, and each bound equals the interval semantics (Spec/Interval.lean, robBound). Conditions (Spec/Interval.lean, `Sound`): every atom whose upper bound is used has been reached by the data; no operand's known part ends within 1e-14 before a window end; no atom is shortened by ev; no bound of an operand runs as one sloped line, without a sample, to the end of what is known. At one time, where temporal operators inside others have Boolean operands, only the first two remain (C62_flat_partial). False without them (C62_false). Missing: until. With PREVIOUS interpolation as C25 (C62_previous_partial); false without the conditions (C62_previous_false)."
  },
  {
   "property": "C63",
   "status": "partial",
   "theorems": [
    "STLRom.Props.C63_partial",
    "STLRom.Props.C63_false",
    "STLRom.Props.C63_bound_false",
    "STLRom.Props.C67_single_partial",
    "STLRom.Props.C63_previous_partial",
    "STLRom.Props.C63_below_previous_partial",
    "STLRom.Props.C63_previous_false"
   ],
   "note": "Exact value for every window of positive length over two comparisons of plain signals, constants or affine expressions; the bounds meet unless an operand begins at +-BigM. False of the code: a window of length 0 is undefined behaviour (C63_false), an operand that begins at -BigM or BigM keeps the bounds apart (C63_bound_false). Also excluded: evaluation at t > 0 with b <= last row < t+b (undefined behaviour, C17_late_false). Until-free operands other than comparisons, on a covering trace: C67_single_partial. With PREVIOUS interpolation: the right operand must not jump exactly at the end of the window; without that condition the result is the robustness with the end of the window left out, so never too high (C63_below_previous_partial). False without it (C63_previous_false)."
  },
  {
   "property": "C64",
   "status": "partial",
   "theorems": [
    "STLRom.Props.C64_lower_partial",
    "STLRom.Props.C64_upper_partial",
    "STLRom.Props.C64_tighten_partial",
    "STLRom.Props.C64_below_ev",
    "STLRom.Props.C64_false",
    "STLRom.Props.C64_lower_previous_partial",
    "STLRom.Props.C64_upper_previous_partial",
    "STLRom.Props.C64_tighten_previous_partial",
    "STLRom.Props.C64_previous_false"
   ],
   "note": "The lower bound is sound for every extension and never goes down; the upper bound is sound once the left operand has come down to the returned value. False of the code: otherwise the upper bound is just the value on the rows so far (C64_false). C64_below_ev is one concrete case below ev, where only complete windows count. Not covered: rows that end before the window opens; operands other than comparisons. With PREVIOUS interpolation as with LINEAR: the lower bound is sound and monotone wherever the operands jump, the upper bound once the left operand has come down to the returned value; it is not sound in general (C64_previous_false)."
  },
  {
   "property": "C65",
   "status": "partial",
   "theorems": [
    "STLRom.Props.C65_partial",
    "STLRom.Props.C65_same_partial",
    "STLRom.Props.C65_number",
    "STLRom.Props.C65_digits_partial",
    "STLRom.Props.C65_false",
    "STLRom.Props.C65_sign_false",
    "STLRom.Props.C65_rejected_false"
   ],
   "note": "False of the code: printing writes no parentheses around the operands of not, and, or, =>, +, -, *, and numbers with six digits, so the text can be rejected or define another formula, even one of opposite robustness (C65_false, C65_sign_false, C65_rejected_false). Proved for the formulas that the grammar groups as printed, with numbers of at most six digits and no unsigned number right of + or - (C65_partial), including equality of every evaluation (C65_same_partial). Longer numbers come back rounded to the nearest six digits, within five millionths (C65_number, C65_digits_partial). Missing: the other formulas, for which it fails."
  },
  {
   "property": "C66",
   "status": "partial",
   "theorems": [
    "STLRom.Props.C66_tokens",
    "STLRom.Props.C66_first",
    "STLRom.Props.C66_definition",
    "STLRom.Props.C66_outcome",
    "STLRom.Props.C66_abs_false"
   ],
   "note": "Only if: proved for every text (C66_tokens, C66_first: the tokens derive from the rules of stl_parser.ypp). If and only if: proved for texts name := words, where no word is :=, param, signal or test and no number is written +1 or 1. (C66_definition, C66_outcome); signals are numbered from 1, as in every driver made by parses (built_signals). Missing: the exact condition for texts with several statements (C61_statements gives the if direction) and for the numbers left out. C66_abs_false: x[t] + abs(y[t]) > 0 is rejected although abs(y[t]) + x[t] > 0 is accepted."
  },
  {
   "property": "C67",
   "status": "partial",
   "theorems": [
    "STLRom.Props.C67_partial",
    "STLRom.Props.C67_single_partial",
    "STLRom.Props.C67_false",
    "STLRom.Props.C67_nested_false",
    "STLRom.Props.C67_previous_partial",
    "STLRom.Props.C67_single_previous_partial",
    "STLRom.Props.C67_previous_false"
   ],
   "note": "C67_partial: every time, until-free operands of any shape, where no operand of an until begins at exactly -B or B. C67_single_partial: one until without that condition, with the exact description of the bounds. NoLongSlope and Untrimmed exclude the defects of C20 and C28 inside the operands. C67_false: an operand at -B makes an and above it undefined behaviour. C67_nested_false: below a temporal operator the bounds need not meet. With PREVIOUS interpolation: where no operand of a Boolean operator jumps exactly at the end of its evaluation interval and no right operand of an until at the end of its window; false without that (C67_previous_false)."
  },
  {
   "property": "C68",
   "status": "partial",
   "theorems": [
    "STLRom.Props.C68_partial",
    "STLRom.Props.C68_undefined",
    "STLRom.Props.C68_false",
    "STLRom.Props.C68_high_false",
    "STLRom.Props.C68_early_false"
   ],
   "note": "False in general: C68_false (too low on a rising line), C68_high_false (too high on a falling line), C68_early_false (undefined for a signal that begins before 0). Proved: a signal on the interval of x is returned, never below (globally: never above) x; a window of length 0 or longer than x is undefined behaviour (C68_undefined)."
  },
  {
   "property": "C69",
   "status": "partial",
   "theorems": [
    "STLRom.Props.C69_partial",
    "STLRom.Props.C69_new_partial",
    "STLRom.Props.C69_clear",
    "STLRom.Props.C69_false",
    "STLRom.Props.C69_data_false"
   ],
   "note": "False in general: signal numbers and data survive clear() (C69_false, C69_data_false). Proved for drivers without data whose signals are the first the new text declares, for every text of statements (C69_partial); for drivers without signals and data, everything (C69_new_partial). C69_clear lists what clear keeps."
  },
  {
   "property": "C70",
   "status": "partial",
   "theorems": [
    "STLRom.Props.C70_same",
    "STLRom.Props.C70_nnf_partial",
    "STLRom.Props.C70_plain_partial",
    "STLRom.Props.C70_false",
    "STLRom.Props.C70_comm_false",
    "STLRom.Props.C70_implies_false",
    "STLRom.Props.C70_bounds_false"
   ],
   "note": "Moving negations keeps the returned number for every formula, with until, on every trace (space semantics). False in general: repeating an operand, swapping the operands of or, writing => as a disjunction, and the bounds."
  },
  {
   "property": "C71",
   "status": "partial",
   "theorems": [
    "STLRom.Props.C71_partial",
    "STLRom.Props.C71_false",
    "STLRom.Props.C71_zero_false"
   ],
   "note": "Proved with PREVIOUS interpolation and space semantics for every formula and every trace, up to the values B, -B and 0. False with LINEAR interpolation (crossings) and without the value 0 (bounds of until below ev)."
  },
  {
   "property": "C72",
   "status": "partial",
   "theorems": [
    "STLRom.Props.C72_partial",
    "STLRom.Props.C72_false",
    "STLRom.Props.C72_false_values",
    "STLRom.Props.C72_negative_false",
    "STLRom.Props.C72_until_partial",
    "STLRom.Props.C72_until_previous_partial",
    "STLRom.Props.C72_nested_partial",
    "STLRom.Props.C72_nested_previous_partial"
   ],
   "note": "Proved for formulas without until over declared signals at non-negative times, for every trace, semantics and interpolation, faults included. False with until (the end of the signals is compared with the bound of the window) and for negative times (rows are read from time 0 on). On covering traces it holds with until too: outside temporal operators for the value and both bounds under the conditions of C67 (C72_until_partial, C72_until_previous_partial), below them for the value under the conditions of C80, C22 and C81 (C72_nested_partial, C72_nested_previous_partial)."
  },
  {
   "property": "C73",
   "status": "proved",
   "theorems": [
    "STLRom.Props.C73_scale",
    "STLRom.Props.C73_needs_bigM"
   ],
   "note": "Every formula without products, until included; outcome, bounds and signal. C73_needs_bigM shows that set_BigM has to be scaled too."
  },
  {
   "property": "C74",
   "status": "partial",
   "theorems": [
    "STLRom.Props.C74_partial",
    "STLRom.Props.C74_undefined",
    "STLRom.Props.C74_false",
    "STLRom.Props.C74_stale_false"
   ],
   "note": "Proved when every formula has been evaluated by get_online_rob under the conditions of C20, any number of times, and no other call came between. False otherwise: dump dereferences a null pointer when a formula was never evaluated (C74_undefined, C74_false), and writes the old robustness after a parameter change (C74_stale_false)."
  },
  {
   "property": "C75",
   "status": "partial",
   "theorems": [
    "STLRom.Props.C75_partial",
    "STLRom.Props.C75_boolean_partial",
    "STLRom.Props.C75_previous_partial",
    "STLRom.Props.C75_until_partial",
    "STLRom.Props.C75_bounds_partial",
    "STLRom.Props.C75_false",
    "STLRom.Props.C75_until_previous_partial",
    "STLRom.Props.C75_nested_partial",
    "STLRom.Props.C75_linear_nested_partial"
   ],
   "note": "Proved for until-free formulas under the conditions of C20/C39 (LINEAR) and C22 (PREVIOUS), for until outside temporal operators (conditions of C67), and for the bounds on traces that only begin in time. False in general: when a temporal operand loses a slope, raising one value by 1/100 lowers the result from 3.83 to 3 (C75_false). Also with until and PREVIOUS interpolation (C75_until_previous_partial). C75_nested_partial: until below temporal operators, as C39_nested_partial. C75_linear_nested_partial: the same with LINEAR interpolation; both evaluations return a number."
  },
  {
   "property": "C76",
   "status": "partial",
   "theorems": [
    "STLRom.Props.C76_partial",
    "STLRom.Props.C76_semantics_partial",
    "STLRom.Props.C76_exact",
    "STLRom.Props.C76_nearest",
    "STLRom.Props.C76_sign_false",
    "STLRom.Props.C76_time_false",
    "STLRom.Props.C76_false",
    "STLRom.Props.C76_until_partial",
    "STLRom.Props.C76_nested_partial"
   ],
   "note": "Proved for PREVIOUS interpolation, every formula and trace: if row times, interval bounds and the horizon are multiples of 2^-j (j at most 45, within range) and margins are doubles, the run in doubles is the exact run, with equal results, faults and signals. C76_semantics_partial: on covering traces, for the formulas of C22_partial, it returns a number, and this is the STL robustness without error. The rounding used is that to the nearest double (C76_nearest). False for LINEAR: on a three-row trace with x negative throughout, ev_[0,20] (x > 0 and y > 0.1) is 2.08 in doubles and -0.2 exactly (C76_sign_false). False for PREVIOUS with times off the grid: ev_[0,0.2] x > 0 evaluated at 0.1 with a row at 0.1+0.2 is 5 in doubles and -1 exactly (C76_time_false). Overflow, NaN and fused multiply-add are not modelled. C76_until_partial, C76_nested_partial: the same with until outside temporal operators (conditions of C67_previous_partial; a number is returned) and below them (conditions of C22_until_partial)."
  },
  {
   "property": "C77",
   "status": "partial",
   "theorems": [
    "STLRom.Props.C77_partial",
    "STLRom.Props.C77_false",
    "STLRom.Props.C76_nearest"
   ],
   "note": "Proved for PREVIOUS interpolation: every formula, until included, every trace of doubles, covering or not, and every interval, with no condition on the times. C76_nearest validates the rounding used: the nearest double, no double is closer, error at most half a unit in the last place. False for LINEAR (C77_false): on the trace of C76_sign_false the result 2.08 is the margin of nothing. Overflow, NaN and fused multiply-add are not modelled."
  },
  {
   "property": "C78",
   "status": "partial",
   "theorems": [
    "STLRom.Props.C78_partial",
    "STLRom.Props.C78_false"
   ],
   "note": "Proved for PREVIOUS interpolation and formulas without until that meet StepOk (no operand of and, or, => jumps at the end of its evaluation interval), on intervals too, for every number returned: if row times, interval bounds and the horizon are multiples of 2^-j (j at most 45, within range) and the compared values are doubles, the result is dbl of the STL robustness. The margins need not be doubles, unlike in C76. False with times that need rounding (C78_false) and with LINEAR interpolation (C76_sign_false). Overflow, NaN and fused multiply-add are not modelled."
  },
  {
   "property": "C79",
   "status": "partial",
   "theorems": [
    "STLRom.Props.C79_partial",
    "STLRom.Props.C79_alw_partial",
    "STLRom.Props.C79_total_partial",
    "STLRom.Props.C79_alw_total_partial",
    "STLRom.Props.C79_false",
    "STLRom.Props.C79_bounds_false"
   ],
   "note": "C79_partial, C79_alw_partial: a returned value is the supremum/infimum over the window of the time since the truth last changed within the window (measured from t+a). C79_false: what happened before the window is forgotten (x = 1 from 0 on, ev_[0,1] x > 0 at 3 gives 1+1e-14). C79_bounds_false: the bounds differ from the value and do not bracket it. C79_total_partial, C79_alw_total_partial: and a number is returned. Missing: margins that are zero at rows, windows of length 0."
  },
  {
   "property": "C80",
   "status": "partial",
   "theorems": [
    "STLRom.Props.C80_partial",
    "STLRom.Props.C80_false"
   ],
   "note": "C80_partial: every until is over two comparisons, stands below an ev or alw of positive length and has a row in its last window; the signals of the operands of and/or end together. C80_false: an until over two untils evaluated at 2 returns 23/7 while the robustness is 4. Missing: until over other formulas below temporal operators, operands of and/or of different lengths. That a number is returned is C81_linear_partial."
  },
  {
   "property": "C81",
   "status": "partial",
   "theorems": [
    "STLRom.Props.C81_partial",
    "STLRom.Props.C81_first_partial",
    "STLRom.Props.C81_linear_partial",
    "STLRom.Props.C81_previous_partial",
    "STLRom.Props.C81_false",
    "STLRom.Props.C81_nested_false",
    "STLRom.Props.C81_bound_false"
   ],
   "note": "C81_partial: no until contains another one or is an operand of and/or/=>; the comparisons are of single signals or constants, or there is a row at the end of the evaluation interval. C81_linear_partial, C81_previous_partial: until below and/or/=> with operands strictly inside the bound, where the number is also the robustness (C80, C22). C81_first_partial: compute_robustness alone returns, also for nested until. C81_false: sums; C81_nested_false: nested until; C81_bound_false: an until at -B below and; all three undefined behaviour."
  },
  {
   "property": "C82",
   "status": "partial",
   "theorems": [
    "STLRom.Props.C82_partial",
    "STLRom.Props.C82_false",
    "STLRom.Props.C82_pop",
    "STLRom.Props.C82_log"
   ],
   "note": "C82_partial: the accessors of the trace tests at any time, those of the next test and formula while a trace test is open. C82_false: otherwise get_next_stl_test and get_next_formula take the front of an empty deque. Histories with run_tests count where it returns (see C51_false)."
  },
  {
   "property": "C83",
   "status": "partial",
   "theorems": [
    "STLRom.Props.C83_partial",
    "STLRom.Props.C83_previous_partial",
    "STLRom.Props.C83_covers",
    "STLRom.Props.C83_false",
    "STLRom.Props.C83_and_false",
    "STLRom.Props.C83_up_false",
    "STLRom.Props.C83_low_false"
   ],
   "note": "C83_partial (LINEAR) and C83_previous_partial (PREVIOUS): formulas with at most one temporal operator, at the top. C83_covers: what they report implies that the rows reach the horizon. C83_false: nested temporal operators. C83_and_false: a temporal operator below a Boolean one. C83_up_false: get_end_complete_up, with a window of one point. Missing: until. C83_low_false: get_end_complete_low of ev_[0,1] ev_[0,5] x > 0 says 0 with rows up to 3, and the lower bound still grows."
  },
  {
   "property": "C84",
   "status": "partial",
   "theorems": [
    "STLRom.Props.C84_partial",
    "STLRom.Props.C84_short_partial",
    "STLRom.Props.C84_print",
    "STLRom.Props.C84_fixed",
    "STLRom.Props.C84_trace",
    "STLRom.Props.C84_formula",
    "STLRom.Props.C84_monitor",
    "STLRom.Props.C84_false",
    "STLRom.Props.C84_signal_false"
   ],
   "note": "C84_partial: no samples and signals among the items, and no print_point or print_sample. C84_short_partial: with samples and signals, when the other numbers need at most six digits. C84_fixed: print_point and print_sample write every number with five digits, rounded to the nearest. C84_print, C84_trace, C84_formula, C84_monitor: what single calls write. C84_false: display_formula after print_sample. C84_signal_false: one signal written twice."
  },
  {
   "property": "C85",
   "status": "partial",
   "theorems": [
    "STLRom.Props.C85_partial",
    "STLRom.Props.C85_value_partial",
    "STLRom.Props.C85_clean_partial",
    "STLRom.Props.C85_false",
    "STLRom.Props.C85_middle_false"
   ],
   "note": "C85_partial: exactly the longest infinite end is cut off. C85_value_partial: values before the infinite samples are kept. C85_clean_partial: no infinite sample is left when none is followed by a finite one. C85_false: the last sample kept reaches over the part cut off. C85_middle_false: an infinite sample before a finite one stays."
  },
  {
   "property": "C86",
   "status": "partial",
   "theorems": [
    "STLRom.Props.C86_partial",
    "STLRom.Props.C86_apart",
    "STLRom.Props.C86_others",
    "STLRom.Props.C86_not",
    "STLRom.Props.C86_undefined",
    "STLRom.Props.C86_false",
    "STLRom.Props.C86_empty_false"
   ],
   "note": "C86_partial: no empty operand, and a target that is not an operand, or any target for compute_globally and the timed operations. C86_others: no other object changes. C86_not: x.compute_not(x) always empties x. C86_undefined: the other operations on their own operand are always undefined behaviour. C86_empty_false: with an empty operand the target keeps its old domain. Missing: compute_eventually and compute_until, which do not clear their target (C11_false). C86_apart: with a separate target the calls are the operations of the other properties."
  },
  {
   "property": "C87",
   "status": "partial",
   "theorems": [
    "STLRom.Props.C87_partial",
    "STLRom.Props.C87_undefined",
    "STLRom.Props.C87_false",
    "STLRom.Props.C87_none_false"
   ],
   "note": "C87_partial: the formula is written, and the number is always -BigM. C87_undefined: undefined behaviour exactly when there is no formula named phi. C87_false: the number is not the lower bound of the robustness. C87_none_false: a driver without formulas. Missing from the full statement: the lower bound, which the code does not compute."
  },
  {
   "property": "C88",
   "status": "partial",
   "theorems": [
    "STLRom.Props.C88_partial",
    "STLRom.Props.C88_lines_partial",
    "STLRom.Props.C88_stuck",
    "STLRom.Props.C88_zero_false",
    "STLRom.Props.C88_false"
   ],
   "note": "C88_partial: two decimal numbers come next, with or without exponent and with blanks around them. C88_lines_partial: lines of two numbers, one per call. C88_stuck, C88_zero_false: after something that is not a number, or at the end of the input, every later call is undefined behaviour. C88_false: one number and the end of the input. Missing: numbers followed directly by other characters; overflow."
  },
  {
   "property": "C89",
   "status": "partial",
   "theorems": [
    "STLRom.Props.C89_partial",
    "STLRom.Props.C89_signal_partial",
    "STLRom.Props.C89_stale",
    "STLRom.Props.C89_child",
    "STLRom.Props.C89_new_false",
    "STLRom.Props.C89_false"
   ],
   "note": "C89_partial: formulas and expressions with two operands, in every state. C89_signal_partial: signals. C89_stale: with one operand the number is the one computed before the call. C89_child: what happens to the operand. C89_new_false: with one operand no number is returned when nothing was computed before. C89_false: not x > 1 on a new monitor. Missing: bare constants, which are no formulas."
  },
  {
   "property": "C90",
   "status": "partial",
   "theorems": [
    "STLRom.Props.C90_partial",
    "STLRom.Props.C90_all_partial",
    "STLRom.Props.C90_first_false",
    "STLRom.Props.C90_false"
   ],
   "note": "C90_partial: positive n. C90_all_partial: n at least the number of rows; the text is that of print_trace. C90_first_false: 0 and negative n write the first row. C90_false: n = 0."
  },
  {
   "property": "C91",
   "status": "partial",
   "theorems": [
    "STLRom.Props.C91_partial",
    "STLRom.Props.C91_read",
    "STLRom.Props.C91_windows_false",
    "STLRom.Props.C91_last_false",
    "STLRom.Props.C91_header_false",
    "STLRom.Props.C91_false"
   ],
   "note": "C91_partial: no white space at the end of a line, and a line break after the last one. C91_read: what is read from all such files. C91_windows_false: with Windows line ends every row has one more value, never assigned. C91_last_false, C91_false: a last line without line break is not read. C91_header_false: the call never returns for a file with a line that begins like no number. Missing: overflow of numbers."
  }
 ]
}
