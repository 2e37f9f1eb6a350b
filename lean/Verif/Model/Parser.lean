import Verif.Model.Scanner
import Verif.Model.Tools

/-!
# The parser

Model of the bison-generated parser `src/stl_parser.cpp` (source `src/stl_parser.ypp`): its
tables, its driving loop and the actions of its rules, reading tokens from
`Verif.Model.Scanner`.

Locations and messages are left out.  Semantic values that were `delete`d are simply no longer
used; memory is not tracked here.  Error recovery (src/stl_parser.cpp:1320-1363) looks for a
state that accepts the `error` token; no state does (`STLRom.Parse.no_error_state` in
`Verif.Proofs.ParserTable`), so every error empties the stack and `parse()` returns 1.
-/

namespace STLRom
namespace Parse
open Scan Text

/-- `yypact_` (src/stl_parser.cpp:1526-1543). -/
def yyPact : List ℤ :=
  [-16, -4, 38, -20, 41, -84, 28, -84, -84, -84, 2, 26, 48, -84, 75, -84, -84, -84, 83, 54,
   25, 12, -84, -84, -84, -84, 71, 72, -4, 38, 67, 25, 25, 101, 101, 100, -84, -84, -84,
   103, -84, -84, -84, -84, -84, 74, 27, -84, 78, 102, 102, -84, -19, -84, -84, -84, -84,
   91, 45, 64, 10, 47, 25, 25, 35, 93, 19, 19, 19, -84, -84, 35, 25, 25, 25, 101, 30, 73,
   -84, -84, -84, 80, -84, -84, -84, -84, -11, -84, -84, 35, 105, 109, -84, -84, -84,
   -84, 0, 0, 0, 25, 76, 77, -84, 1, 25, 99, 47, 113, 112, -84, -84, -84, 89, 90, -84,
   30, 70, 56, 117, -84, -84, -84, -84, 86, -84, -84, -84, -84, 106, 88, 108, 56, 87, -84]

/-- `yydefact_` (src/stl_parser.cpp:1545-1562). -/
def yyDefact : List ℕ :=
  [0, 0, 0, 0, 0, 59, 0, 61, 62, 60, 0, 0, 0, 40, 42, 49, 50, 51, 53, 0, 0, 0, 1, 63, 65,
   64, 0, 0, 0, 0, 0, 0, 0, 0, 0, 0, 4, 5, 32, 0, 8, 7, 10, 12, 14, 17, 0, 23, 33, 47,
   47, 57, 0, 38, 39, 41, 52, 34, 0, 0, 24, 0, 0, 0, 0, 0, 0, 0, 0, 19, 20, 0, 0, 0, 0,
   0, 0, 0, 55, 58, 56, 0, 9, 31, 2, 3, 0, 29, 28, 0, 0, 0, 15, 16, 13, 18, 25, 26, 27,
   0, 0, 0, 45, 0, 0, 0, 0, 0, 0, 11, 6, 30, 0, 0, 48, 0, 0, 0, 0, 22, 43, 44, 46, 0, 36,
   37, 35, 21, 0, 0, 0, 0, 0, 54]

/-- `yypgoto_` (src/stl_parser.cpp:1564-1570). -/
def yyPgoto : List ℤ :=
  [-84, -83, -84, -84, 31, -84, -84, -84, -27, -84, -84, -29, -31, 116, -84, -3, 104, -84,
   119, 15, -84, 81, 107, -84, -84, 82, -84, 123, -84]

/-- `yydefgoto_` (src/stl_parser.cpp:1572-1578). -/
def yyDefgoto : List ℤ :=
  [-1, 86, 40, 41, 42, 43, 44, 45, 46, 47, 71, 62, 48, 5, 6, 126, 13, 14, 7, 102, 103, 77,
   17, 18, 8, 51, 52, 9, 10]

/-- `yytable_` (src/stl_parser.cpp:1580-1597). -/
def yyTable : List ℕ :=
  [59, 60, 22, 107, 58, 63, 106, 114, 1, 2, 3, 73, 74, 19, 49, 75, 50, 4, 115, 84, 85, 79,
   74, 118, 89, 75, 1, 11, 3, 12, 31, 87, 88, 32, 69, 4, 70, 90, 33, 34, 89, 96, 97, 98,
   95, 49, 99, 50, 35, 36, 37, 82, 69, 39, 70, 36, 37, 38, 35, 39, 20, 100, 108, 101, 26,
   36, 37, 21, 111, 39, 83, 15, 16, 116, 72, 73, 74, 84, 85, 75, 72, 73, 74, 124, 125,
   75, 27, 123, 72, 73, 74, 30, 28, 75, 66, 67, 68, 92, 93, 94, 29, 53, 54, 57, 61, 64,
   65, 76, 81, 91, 105, 109, 104, 110, 112, 113, 117, 119, 82, 120, 121, 127, 128, 129,
   130, 131, 23, 133, 132, 24, 122, 78, 55, 25, 80, 0, 56]

/-- `yycheck_` (src/stl_parser.cpp:1599-1616). -/
def yyCheck : List ℤ :=
  [31, 32, 0, 86, 31, 34, 17, 6, 24, 25, 26, 11, 12, 33, 33, 15, 35, 33, 17, 30, 31, 40, 12,
   106, 5, 15, 24, 31, 26, 33, 5, 62, 63, 8, 7, 33, 9, 64, 13, 14, 5, 72, 73, 74, 71, 33,
   75, 35, 23, 30, 31, 6, 7, 34, 9, 30, 31, 32, 23, 34, 19, 31, 89, 33, 38, 30, 31, 39,
   99, 34, 6, 33, 34, 104, 10, 11, 12, 30, 31, 15, 10, 11, 12, 27, 28, 15, 38, 17, 10,
   11, 12, 37, 17, 15, 20, 21, 22, 66, 67, 68, 17, 30, 30, 36, 3, 5, 3, 5, 17, 16, 30, 6,
   39, 4, 38, 38, 17, 4, 6, 30, 30, 4, 36, 17, 36, 17, 10, 40, 131, 10, 115, 50, 28, 10,
   52, -1, 29]

/-- `yystos_` (src/stl_parser.cpp:1618-1635). -/
def yyStos : List ℕ :=
  [0, 24, 25, 26, 33, 54, 55, 59, 65, 68, 69, 31, 33, 57, 58, 33, 34, 63, 64, 33, 19, 39, 0,
   54, 59, 68, 38, 38, 17, 17, 37, 5, 8, 13, 14, 23, 30, 31, 32, 34, 43, 44, 45, 46, 47,
   48, 49, 50, 53, 33, 35, 66, 67, 30, 30, 57, 63, 36, 49, 53, 53, 3, 52, 52, 5, 3, 20,
   21, 22, 7, 9, 51, 10, 11, 12, 15, 5, 62, 62, 40, 66, 17, 6, 6, 30, 31, 42, 53, 53, 5,
   49, 16, 45, 45, 45, 49, 53, 53, 53, 52, 31, 33, 60, 61, 39, 30, 17, 42, 49, 6, 4, 53,
   38, 38, 6, 17, 53, 17, 42, 4, 30, 30, 60, 17, 27, 28, 56, 4, 36, 17, 36, 17, 56, 40]

/-- `yyr1_` (src/stl_parser.cpp:1637-1647). -/
def yyR1 : List ℕ :=
  [0, 41, 42, 42, 43, 43, 44, 45, 45, 45, 46, 46, 47, 47, 48, 48, 48, 49, 50, 51, 51, 52,
   52, 53, 53, 53, 53, 53, 53, 53, 53, 53, 53, 54, 55, 55, 56, 56, 57, 57, 58, 58, 59,
   60, 60, 61, 61, 62, 62, 63, 63, 64, 64, 65, 66, 66, 67, 67, 68, 69, 69, 69, 69, 69,
   69, 69]

/-- `yyr2_` (src/stl_parser.cpp:1649-1659). -/
def yyR2 : List ℕ :=
  [0, 2, 1, 1, 1, 1, 4, 1, 1, 3, 1, 4, 1, 3, 1, 3, 3, 1, 3, 1, 1, 5, 4, 1, 2, 3, 3, 3, 3, 3,
   4, 3, 1, 3, 4, 8, 1, 1, 3, 3, 1, 3, 2, 3, 3, 1, 3, 0, 3, 1, 1, 1, 3, 2, 11, 2, 2, 1,
   4, 1, 1, 1, 1, 2, 2, 2]

/-- `yypact_ninf_` (src/stl_parser.cpp:1522). -/
def pactNinf : ℤ := -84
/-- `yylast_` (include/stl_parser.h:509). -/
def yyLast : ℤ := 136
/-- `yyfinal_` (include/stl_parser.h:511). -/
def yyFinal : ℕ := 22
/-- `yyntokens_` (include/stl_parser.h:514). -/
def yyNtokens : ℕ := 41

/-- The union of semantic values (src/stl_parser.ypp:60-70), as far as it is used. -/
inductive SVal where
  | none
  | str (s : String)
  | tr (T : Tr)
  | ival (I : Ival)
  | bool (b : Bool)
  | pmap (m : Assoc ℚ)
  deriving DecidableEq, Repr

/-- Outcome of the action of a rule: the new driver and `$$`; `YYERROR`; or undefined
behaviour (reading a member of the union that is not the one stored). -/
inductive Act where
  | ok (d : Driver) (v : SVal)
  | err (d : Driver)
  | ub

/-- The actions (src/stl_parser.cpp:768-1266) on the values `$1`, `$2`, ...; rules without an
action copy `$1` (src/stl_parser.cpp:745-754).

Rule 32: the null entry that `driver.formula_map[name]` would create for an unknown name is
not represented; `PHI_ID` is only returned for known names.  Rule 49: the conversion of the
index to `short` is not modelled. -/
def act (d : Driver) (rule : ℕ) (args : List SVal) : Act :=
  match rule, args with
  | 4, [.str s] => .ok d (.tr (mkConst s))
  | 5, [.str s] => .ok d (.tr (mkConst s))
  | 6, [.str s, _, _, _] =>
    match d.smap.lookup s with
    | some (_ + 1) => .ok d (.tr (.sig .init s d.smap none))
    | some 0 => .err d
    | none => .err { d with smap := d.smap.set s 0 }
  | 9, [_, v, _] => .ok d v
  | 11, [_, _, .tr c, _] => .ok d (.tr (.abs .init c))
  | 13, [.tr a, _, .tr b] => .ok d (.tr (.mult .init a b))
  | 15, [.tr a, _, .tr b] => .ok d (.tr (.plus .init a b))
  | 16, [.tr a, _, .tr b] => .ok d (.tr (.minus .init a b))
  | 18, [.tr a, .str op, .tr b] =>
    .ok d (.tr (.atom .init (if op = "<" then .less else .greater) a b))
  | 19, [_] => .ok d (.str "<")
  | 20, [_] => .ok d (.str ">")
  | 21, [_, .str a, _, .str b, _] => .ok d (.ival (mkIval a b))
  | 22, [_, .str a, .str b, _] => .ok d (.ival (mkIval a b))
  | 24, [_, .tr c] => .ok d (.tr (.not .init c))
  | 25, [.tr a, _, .tr b] => .ok d (.tr (.and .init a b))
  | 26, [.tr a, _, .tr b] => .ok d (.tr (.or .init a b))
  | 27, [.tr a, _, .tr b] => .ok d (.tr (.implies .init a b))
  | 28, [_, .ival I, .tr c] => .ok d (.tr (.ev .init I c))
  | 29, [_, .ival I, .tr c] => .ok d (.tr (.alw .init I c))
  | 30, [.tr a, _, .ival I, .tr b] => .ok d (.tr (.untl .init a I b))
  | 31, [_, v, _] => .ok d v
  | 32, [.str s] =>
    match d.formulas.lookup s with
    | some T => .ok d (.tr T.clone)
    | none => .err d
  | 33, [.str s, _, .tr T] => .ok { d with formulas := d.formulas.set s T } .none
  | 34, [_, .str id, _, .str env] => .ok (d.addTraceTest id env 0 false) .none
  | 35, [_, .str id, _, .str env, _, .str c, _, .bool b] =>
    .ok (d.addTraceTest id env (sToDVal c) b) .none
  | 36, [_] => .ok d (.bool true)
  | 37, [_] => .ok d (.bool false)
  | 38, [.str p, _, .str c] => .ok { d with params := d.params.set p (sToDVal c) } .none
  | 39, [.str p, _, .str c] => .ok { d with params := d.params.set p (sToDVal c) } .none
  | 43, [.str p, _, .str c] => .ok d (.pmap [(p, sToDVal c)])
  | 44, [.str p, _, .str c] => .ok d (.pmap [(p, sToDVal c)])
  | 46, [.pmap a, _, .pmap ((p, v) :: _)] => .ok d (.pmap (a.set p v))
  | 47, [] => .ok d (.pmap [])
  | 48, [_, v, _] => .ok d v
  | 49, [.str s] => .ok { d with smap := d.smap.set s (d.smap.length + 1) } .none
  | 50, [_] => .ok d .none
  | 54, [.str id, .pmap m, _, .tr f, _, .str p, _, .str n, _, .bool b, _] =>
    .ok (d.addStlTest6 id m f p n b) .none
  | 55, [.str id, .pmap m] =>
    .ok (if m = [] then d.addStlTest1 id else d.addStlTest2 id m) .none
  | r, v :: _ =>
    if r ∈ [2, 3, 7, 8, 10, 12, 14, 17, 23, 40, 41, 42, 45, 51, 52, 53, 56, 57, 58, 59, 60, 61,
      62, 63, 64, 65] then .ok d v else .ub
  | _, _ => .ub

/-- State of `Parser::parse` (src/stl_parser.cpp:627-655): the driver, the stack (top first,
each state with its value), the lookahead token if one has been read, and the unread text. -/
structure PState where
  drv : Driver
  stack : List (ℕ × SVal)
  look : Option (ℕ × SVal)
  input : List Char
  deriving DecidableEq, Repr

/-- One round of the loop: another state, or the end of `parse()`. -/
inductive Step where
  | next (p : PState)
  | accept (d : Driver)
  | abort (d : Driver)
  | ub

/-- `yy_lr_goto_state_` (src/stl_parser.cpp:605-612). -/
def goto (s sym : ℕ) : ℕ :=
  let r := yyPgoto.getD (sym - yyNtokens) 0 + (s : ℤ)
  if 0 ≤ r ∧ r ≤ yyLast ∧ yyCheck.getD r.toNat (-1) = (s : ℤ) then yyTable.getD r.toNat 0
  else (yyDefgoto.getD (sym - yyNtokens) 0).toNat

/-- `yyreduce` (src/stl_parser.cpp:738-1291). -/
def reduce (p : PState) (rule : ℕ) : Step :=
  let len := yyR2.getD rule 0
  let args := ((p.stack.take len).map (·.2)).reverse
  match p.stack.drop len with
  | [] => .ub
  | (s, v) :: rest =>
    match act p.drv rule args with
    | .ub => .ub
    | .err d => .abort d
    | .ok d w =>
      .next { p with
        drv := d
        stack := (goto s (yyR1.getD rule 0), w) :: (s, v) :: rest }

/-- `yydefault` (src/stl_parser.cpp:729-736). -/
def default (p : PState) (s : ℕ) : Step :=
  let r := yyDefact.getD s 0
  if r = 0 then .abort p.drv else reduce p r

/-- A token as a symbol with its value. -/
def tokVal (t : Tok) : ℕ × SVal :=
  (t.sym, match t.str with
    | some s => .str s
    | none => .none)

/-- From `yybackup` on (src/stl_parser.cpp:684-727) with lookahead `la` and `n` from
`yypact_`. -/
def withLook (p : PState) (s : ℕ) (n : ℤ) (la : ℕ × SVal) : Step :=
  let i := n + (la.1 : ℤ)
  if i < 0 ∨ yyLast < i ∨ yyCheck.getD i.toNat (-1) ≠ (la.1 : ℤ) then default p s
  else
    let t := yyTable.getD i.toNat 0
    if t = 0 then .ub
    else .next { p with stack := (t, la.2) :: p.stack, look := none }

/-- One round of the loop of `Parser::parse` (src/stl_parser.cpp:673-1292): accept, shift one
token, reduce once, or fail. -/
def step (p : PState) : Step :=
  match p.stack with
  | [] => .ub
  | (s, _) :: _ =>
    if s = yyFinal then .accept p.drv
    else
      let n := yyPact.getD s 0
      if n = pactNinf then default p s
      else
        match p.look with
        | some la => withLook p s n la
        | none =>
          let (t, rest) := lex p.drv p.input
          withLook { p with look := some (tokVal t), input := rest } s n (tokVal t)

/-- The state before the first round (src/stl_parser.cpp:664-669). -/
def start (d : Driver) (text : List Char) : PState := ⟨d, [(0, .none)], none, text⟩

/-- `n` rounds of the loop. -/
def run : ℕ → PState → Step
  | 0, p => .next p
  | n + 1, p =>
    match step p with
    | .next p' => run n p'
    | r => r

/-- `STLDriver::parse_string` (src/stl_driver.cpp:170-174, through `parse_stream` 150-160)
returns `b` and leaves the driver `d'`. -/
def Parses (d : Driver) (text : List Char) (b : Bool) (d' : Driver) : Prop :=
  ∃ n, run n (start d text) = if b then .accept d' else .abort d'

end Parse
end STLRom
