import Verif.Model.Driver

/-!
# The scanner

Model of the flex-generated scanner `src/stl_scanner.cpp` (source `src/stl_scanner.lpp`):
its tables, its matching loop and the actions of its rules.

A text is a list of `Char`s standing for bytes; a `Char` above 255 is read as the byte 255.
The whole text is one buffer: refilling the buffer (src/stl_scanner.cpp:1052-1175) is not
modelled, the automaton simply stops at the end of the text.  The NUL byte takes the
transitions of class 1, as in `yy_try_NUL_trans` (src/stl_scanner.cpp:1467-1490).
Locations (`yylloc`) only appear in messages and are left out.
-/

namespace STLRom
namespace Scan

/-- `yy_accept` (src/stl_scanner.cpp:409-416). -/
def yyAccept : List ℕ :=
  [0, 0, 0, 33, 31, 1, 2, 17, 31, 31, 19, 9, 10, 24, 22, 18, 23, 27, 28, 31, 13, 31, 14, 25,
   7, 8, 20, 1, 0, 29, 0, 0, 30, 27, 28, 12, 26, 21, 15, 3, 11, 16, 25, 5, 4, 6, 0]

/-- `yy_ec` (src/stl_scanner.cpp:418-448). -/
def yyEc : List ℕ :=
  [0, 1, 1, 1, 1, 1, 1, 1, 1, 2, 3, 1, 1, 2, 1, 1, 1, 1, 1, 1, 1, 1, 1, 1, 1, 1, 1, 1, 1, 1,
   1, 1, 2, 4, 5, 6, 1, 1, 7, 1, 8, 9, 10, 11, 12, 13, 14, 1, 15, 15, 15, 15, 15, 15, 15,
   15, 15, 15, 16, 1, 17, 18, 19, 1, 1, 20, 20, 20, 20, 20, 20, 20, 20, 20, 20, 20, 20,
   20, 20, 20, 20, 20, 20, 20, 20, 20, 20, 20, 20, 20, 20, 21, 22, 23, 1, 24, 1, 20, 20,
   20, 20, 20, 20, 20, 20, 20, 20, 20, 20, 20, 20, 20, 20, 20, 20, 20, 20, 20, 20, 20,
   20, 20, 20, 1, 25, 1, 1, 1, 1, 1, 1, 1, 1, 1, 1, 1, 1, 1, 1, 1, 1, 1, 1, 1, 1, 1, 1,
   1, 1, 1, 1, 1, 1, 1, 1, 1, 1, 1, 1, 1, 1, 1, 1, 1, 1, 1, 1, 1, 1, 1, 1, 1, 1, 1, 1, 1,
   1, 1, 1, 1, 1, 1, 1, 1, 1, 1, 1, 1, 1, 1, 1, 1, 1, 1, 1, 1, 1, 1, 1, 1, 1, 1, 1, 1, 1,
   1, 1, 1, 1, 1, 1, 1, 1, 1, 1, 1, 1, 1, 1, 1, 1, 1, 1, 1, 1, 1, 1, 1, 1, 1, 1, 1, 1, 1,
   1, 1, 1, 1, 1, 1, 1, 1, 1, 1, 1, 1, 1, 1, 1, 1, 1, 1, 1, 1, 1, 1]

/-- `yy_meta` (src/stl_scanner.cpp:450-455). -/
def yyMeta : List ℕ :=
  [0, 1, 1, 1, 1, 1, 1, 1, 1, 1, 1, 1, 1, 1, 1, 1, 1, 1, 1, 1, 1, 1, 1, 1, 1, 1]

/-- `yy_base` (src/stl_scanner.cpp:457-464). -/
def yyBase : List ℕ :=
  [0, 0, 0, 63, 64, 60, 64, 64, 21, 58, 64, 64, 64, 64, 13, 64, 15, 45, 17, 41, 17, 39, 39,
   18, 33, 64, 64, 53, 32, 64, 50, 49, 64, 36, 25, 64, 34, 64, 64, 24, 64, 64, 26, 23,
   64, 64, 64, 44, 43]

/-- `yy_def` (src/stl_scanner.cpp:466-473). -/
def yyDef : List ℕ :=
  [0, 46, 1, 46, 46, 46, 46, 46, 47, 48, 46, 46, 46, 46, 46, 46, 46, 46, 46, 46, 46, 46, 46,
   46, 46, 46, 46, 46, 47, 46, 47, 48, 46, 46, 46, 46, 46, 46, 46, 46, 46, 46, 46, 46,
   46, 46, 0, 46, 46]

/-- `yy_nxt` (src/stl_scanner.cpp:475-486). -/
def yyNxt : List ℕ :=
  [0, 4, 5, 6, 7, 8, 9, 10, 11, 12, 13, 14, 15, 16, 17, 18, 19, 20, 21, 22, 23, 24, 4, 25,
   4, 26, 29, 33, 34, 33, 34, 33, 34, 42, 35, 38, 39, 29, 42, 33, 34, 42, 42, 30, 31, 28,
   42, 45, 44, 36, 42, 36, 32, 46, 30, 27, 43, 41, 40, 37, 36, 32, 27, 46, 3, 46, 46, 46,
   46, 46, 46, 46, 46, 46, 46, 46, 46, 46, 46, 46, 46, 46, 46, 46, 46, 46, 46, 46, 46, 46]

/-- `yy_chk` (src/stl_scanner.cpp:488-499). -/
def yyChk : List ℕ :=
  [0, 1, 1, 1, 1, 1, 1, 1, 1, 1, 1, 1, 1, 1, 1, 1, 1, 1, 1, 1, 1, 1, 1, 1, 1, 1, 8, 14, 14,
   16, 16, 18, 18, 23, 16, 20, 20, 28, 23, 34, 34, 42, 23, 8, 48, 47, 42, 43, 39, 36, 42,
   33, 31, 30, 28, 27, 24, 22, 21, 19, 17, 9, 5, 3, 46, 46, 46, 46, 46, 46, 46, 46, 46,
   46, 46, 46, 46, 46, 46, 46, 46, 46, 46, 46, 46, 46, 46, 46, 46, 46]

/-- The byte a character stands for. -/
def byte (c : Char) : ℕ := min c.toNat 255

/-- `yy_ec[YY_SC_TO_UI(*yy_cp)]` (src/stl_scanner.cpp:773); NUL is class 1
(src/stl_scanner.cpp:1474). -/
def cls (b : ℕ) : ℕ := if b = 0 then 1 else yyEc.getD b 0

/-- The state `46` in which the loop stops (src/stl_scanner.cpp:788). -/
def jam : ℕ := 46

/-- The transition on a class (src/stl_scanner.cpp:779-786): follow `yy_def` until the entry
belongs to the state.  The chains have at most 4 states. -/
def nextAux : ℕ → ℕ → ℕ → Option ℕ
  | 0, _, _ => none
  | n + 1, s, c =>
    if yyChk.getD (yyBase.getD s 0 + c) 0 = s then some (yyNxt.getD (yyBase.getD s 0 + c) 0)
    else
      let s' := yyDef.getD s 0
      nextAux n s' (if 47 ≤ s' then yyMeta.getD c 0 else c)

/-- One transition (src/stl_scanner.cpp:773-786). -/
def next (s c : ℕ) : ℕ := (nextAux 4 s c).getD 0

/-- The matching loop (src/stl_scanner.cpp:770-790) from state `s`, having read `u` (in
reverse) with `v` left; `last` is the last accepting configuration: its rule, the matched
text and what follows it. -/
def munchFrom (s : ℕ) (u v : List Char) (last : Option (ℕ × List Char × List Char)) :
    Option (ℕ × List Char × List Char) :=
  let last := if yyAccept.getD s 0 ≠ 0 then some (yyAccept.getD s 0, u.reverse, v) else last
  match v with
  | [] => last
  | c :: v =>
    if next s (cls (byte c)) = jam then last
    else munchFrom (next s (cls (byte c))) (c :: u) v last

/-- The next match at the head of a text: its rule number, the matched text (`yytext`) and
the rest.  `none` if no rule matches. -/
def munch (text : List Char) : Option (ℕ × List Char × List Char) := munchFrom 1 [] text none

/-- What the parser sees of a token: the symbol number after `yytranslate_`
(src/stl_parser.cpp:1730-1776) and `yylval->stringVal` if the action sets it. -/
structure Tok where
  sym : ℕ
  str : Option String
  deriving DecidableEq, Repr

/-! Symbol numbers of the tokens (src/stl_parser.cpp:1657-1673, `yytname_`). -/
namespace Sym
abbrev EOF : ℕ := 0
abbrev undef : ℕ := 2
abbrev LINT : ℕ := 3
abbrev RINT : ℕ := 4
abbrev LPAREN : ℕ := 5
abbrev RPAREN : ℕ := 6
abbrev LT : ℕ := 7
abbrev NOT : ℕ := 8
abbrev GT : ℕ := 9
abbrev AND : ℕ := 10
abbrev OR : ℕ := 11
abbrev IMPLIES : ℕ := 12
abbrev BOX : ℕ := 13
abbrev DIAMOND : ℕ := 14
abbrev UNTIL : ℕ := 15
abbrev TIME : ℕ := 16
abbrev COMMA : ℕ := 17
abbrev ASSIGN : ℕ := 19
abbrev PLUS : ℕ := 20
abbrev MINUS : ℕ := 21
abbrev MULT : ℕ := 22
abbrev ABS : ℕ := 23
abbrev PARAM_DECL : ℕ := 24
abbrev SIGNAL_DECL : ℕ := 25
abbrev TEST : ℕ := 26
abbrev TRUE : ℕ := 27
abbrev FALSE : ℕ := 28
abbrev CONSTANT : ℕ := 30
abbrev PARAM_ID : ℕ := 31
abbrev PHI_ID : ℕ := 32
abbrev NEW_ID : ℕ := 33
abbrev SIGNAL_ID : ℕ := 34
abbrev STL_TEST_ID : ℕ := 35
abbrev STRING : ℕ := 36
abbrev COLON : ℕ := 37
abbrev EQUALS : ℕ := 38
abbrev LBRACE : ℕ := 39
abbrev RBRACE : ℕ := 40
end Sym

/-- `STLDriver::reserved` as filled by the scanner's constructor
(src/stl_scanner.lpp:173-199). -/
def reserved : Assoc ℕ :=
  [("F", Sym.DIAMOND), ("F_", Sym.DIAMOND), ("ev", Sym.DIAMOND), ("ev_", Sym.DIAMOND),
   ("G", Sym.BOX), ("G_", Sym.BOX), ("alw", Sym.BOX), ("alw_", Sym.BOX),
   ("U", Sym.UNTIL), ("U_", Sym.UNTIL), ("until", Sym.UNTIL), ("until_", Sym.UNTIL),
   ("and", Sym.AND), ("or", Sym.OR), ("not", Sym.NOT), ("true", Sym.TRUE),
   ("false", Sym.FALSE), ("t", Sym.TIME), ("abs", Sym.ABS), ("param", Sym.PARAM_DECL),
   ("test", Sym.TEST), ("signal", Sym.SIGNAL_DECL)]

/-- `yytranslate_` on the value of a byte seen as a (signed) `char`
(src/stl_parser.cpp:1730-1776): the bytes from 128 on are negative, hence the end of the
input, and so is NUL. -/
def byteTok (b : ℕ) : ℕ :=
  if b = 0 ∨ 128 ≤ b then Sym.EOF
  else if b = 58 then Sym.COLON
  else if b = 61 then Sym.EQUALS
  else if b = 123 then Sym.LBRACE
  else if b = 125 then Sym.RBRACE
  else Sym.undef

/-- The action of rule 25 (src/stl_scanner.lpp:97-124): how an identifier is classified. -/
def identTok (d : Driver) (s : String) : Tok :=
  match reserved.lookup s with
  | some k => ⟨k, none⟩
  | none =>
    if (d.formulas.lookup s).isSome then ⟨Sym.PHI_ID, some s⟩
    else if (d.params.lookup s).isSome then ⟨Sym.PARAM_ID, some s⟩
    else if (d.smap.lookup s).isSome then ⟨Sym.SIGNAL_ID, some s⟩
    else if (d.stlTests.lookup s).isSome then ⟨Sym.STL_TEST_ID, some s⟩
    else ⟨Sym.NEW_ID, some s⟩

/-- The actions (src/stl_scanner.cpp:828-1047) as a token, or `none` for the rules that only
skip text. -/
def action (d : Driver) (rule : ℕ) (u : List Char) : Option Tok :=
  match rule with
  | 1 | 2 | 30 => none
  | 3 | 4 => some ⟨Sym.DIAMOND, none⟩
  | 5 | 6 => some ⟨Sym.BOX, none⟩
  | 7 => some ⟨Sym.LINT, none⟩
  | 8 => some ⟨Sym.RINT, none⟩
  | 9 => some ⟨Sym.LPAREN, none⟩
  | 10 => some ⟨Sym.RPAREN, none⟩
  | 11 | 12 => some ⟨Sym.IMPLIES, none⟩
  | 13 | 15 => some ⟨Sym.LT, none⟩
  | 14 | 16 => some ⟨Sym.GT, none⟩
  | 17 => some ⟨Sym.NOT, none⟩
  | 18 => some ⟨Sym.COMMA, none⟩
  | 19 => some ⟨Sym.AND, none⟩
  | 20 => some ⟨Sym.OR, none⟩
  | 21 => some ⟨Sym.ASSIGN, none⟩
  | 22 => some ⟨Sym.PLUS, none⟩
  | 23 => some ⟨Sym.MINUS, none⟩
  | 24 => some ⟨Sym.MULT, none⟩
  | 25 => some (identTok d (String.ofList u))
  | 26 | 27 | 28 => some ⟨Sym.CONSTANT, some (String.ofList u)⟩
  | 29 => some ⟨Sym.STRING, some (String.ofList (u.drop 1).dropLast)⟩
  | 31 => some ⟨byteTok (byte (u.headD 'a')), none⟩
  | _ => none

/-- `Scanner::lex` (src/stl_scanner.cpp:697-1182): the next token and the text after it; the
end of the text gives `END` for ever.  The first argument bounds the number of skipped
pieces; `lex` gives more than there can be. -/
def lexAux (d : Driver) : ℕ → List Char → Tok × List Char
  | _, [] => (⟨Sym.EOF, none⟩, [])
  | 0, text => (⟨Sym.EOF, none⟩, text)
  | n + 1, text =>
    match munch text with
    | none => (⟨Sym.undef, none⟩, text)
    | some (rule, u, v) =>
      match action d rule u with
      | some t => (t, v)
      | none => lexAux d n v

def lex (d : Driver) (text : List Char) : Tok × List Char := lexAux d text.length text

end Scan
end STLRom
