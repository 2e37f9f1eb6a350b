import Verif.Props.Scanner

/-!
# The grammar of the parser

The rules of `src/stl_parser.ypp:151-522`, without actions and precedences, and what they derive.
-/

namespace STLRom
namespace Spec
open Scan

/-- The nonterminals, in the order of the file. -/
inductive NT where
  | constant
  | constant_signal
  | signal
  | signal_atom
  | signal_unaryexpr
  | signal_multexpr
  | signal_addexpr
  | signal_expr
  | stl_atom
  | op
  | interval
  | stl_formula
  | assignement
  | trace_env
  | boolean
  | param_assignement
  | param_assignement_list
  | param_assignements
  | local_param_assignement
  | local_param_assignement_list
  | local_param_assignements
  | signal_new
  | signal_new_list
  | signal_decl
  | stl_test
  | stl_tests
  | trace_test
  | start
  deriving DecidableEq, Repr

/-- A symbol on the right of a rule: a kind of token or a nonterminal. -/
inductive GSym where
  | t (k : ℕ)
  | n (x : NT)
  deriving DecidableEq

open NT GSym Sym

/-- The rules, in the order of the file. -/
def yppRules : List (NT × List GSym) :=
  [(constant, [t CONSTANT]),
   (constant, [t PARAM_ID]),
   (constant_signal, [t CONSTANT]),
   (constant_signal, [t PARAM_ID]),
   (signal, [t SIGNAL_ID, t LINT, t TIME, t RINT]),
   (signal_atom, [n signal]),
   (signal_atom, [n constant_signal]),
   (signal_atom, [t LPAREN, n signal_expr, t RPAREN]),
   (signal_unaryexpr, [n signal_atom]),
   (signal_unaryexpr, [t ABS, t LPAREN, n signal_expr, t RPAREN]),
   (signal_multexpr, [n signal_unaryexpr]),
   (signal_multexpr, [n signal_addexpr, t MULT, n signal_atom]),
   (signal_addexpr, [n signal_multexpr]),
   (signal_addexpr, [n signal_addexpr, t PLUS, n signal_atom]),
   (signal_addexpr, [n signal_addexpr, t MINUS, n signal_atom]),
   (signal_expr, [n signal_addexpr]),
   (stl_atom, [n signal_expr, n op, n signal_expr]),
   (op, [t LT]),
   (op, [t GT]),
   (interval, [t LINT, n constant, t COMMA, n constant, t RINT]),
   (interval, [t LINT, n constant, n constant, t RINT]),
   (stl_formula, [n stl_atom]),
   (stl_formula, [t NOT, n stl_formula]),
   (stl_formula, [n stl_formula, t AND, n stl_formula]),
   (stl_formula, [n stl_formula, t OR, n stl_formula]),
   (stl_formula, [n stl_formula, t IMPLIES, n stl_formula]),
   (stl_formula, [t DIAMOND, n interval, n stl_formula]),
   (stl_formula, [t BOX, n interval, n stl_formula]),
   (stl_formula, [n stl_formula, t UNTIL, n interval, n stl_formula]),
   (stl_formula, [t LPAREN, n stl_formula, t RPAREN]),
   (stl_formula, [t PHI_ID]),
   (assignement, [t NEW_ID, t ASSIGN, n stl_formula]),
   (trace_env, [t TEST, t NEW_ID, t COLON, t STRING]),
   (trace_env, [t TEST, t NEW_ID, t COLON, t STRING, t COMMA, t CONSTANT, t COMMA, n boolean]),
   (boolean, [t TRUE]),
   (boolean, [t FALSE]),
   (param_assignement, [t PARAM_ID, t EQUALS, t CONSTANT]),
   (param_assignement, [t NEW_ID, t EQUALS, t CONSTANT]),
   (param_assignement_list, [n param_assignement]),
   (param_assignement_list, [n param_assignement_list, t COMMA, n param_assignement]),
   (param_assignements, [t PARAM_DECL, n param_assignement_list]),
   (local_param_assignement, [t PARAM_ID, t EQUALS, t CONSTANT]),
   (local_param_assignement, [t NEW_ID, t EQUALS, t CONSTANT]),
   (local_param_assignement_list, [n local_param_assignement]),
   (local_param_assignement_list, [n local_param_assignement_list, t COMMA, n local_param_assignement]),
   (local_param_assignements, []),
   (local_param_assignements, [t LPAREN, n local_param_assignement_list, t RPAREN]),
   (signal_new, [t NEW_ID]),
   (signal_new, [t SIGNAL_ID]),
   (signal_new_list, [n signal_new]),
   (signal_new_list, [n signal_new_list, t COMMA, n signal_new]),
   (signal_decl, [t SIGNAL_DECL, n signal_new_list]),
   (stl_test, [t NEW_ID, n local_param_assignements, t LBRACE, n stl_formula, t COMMA, t STRING, t COMMA,
     t STRING, t COMMA, n boolean, t RBRACE]),
   (stl_test, [t STL_TEST_ID, n local_param_assignements]),
   (stl_tests, [n stl_tests, n stl_test]),
   (stl_tests, [n stl_test]),
   (trace_test, [n trace_env, t LBRACE, n stl_tests, t RBRACE]),
   (start, [n assignement]),
   (start, [n trace_test]),
   (start, [n param_assignements]),
   (start, [n signal_decl]),
   (start, [n start, n assignement]),
   (start, [n start, n trace_test]),
   (start, [n start, n param_assignements])]

mutual
/-- The sequences of kinds of tokens that a symbol derives. -/
inductive Derives : GSym → List ℕ → Prop where
  | tok (k : ℕ) : Derives (t k) [k]
  | rule {x rhs w} : (x, rhs) ∈ yppRules → DerivesAll rhs w → Derives (n x) w

/-- The sequences that a list of symbols derives. -/
inductive DerivesAll : List GSym → List ℕ → Prop where
  | nil : DerivesAll [] []
  | cons {a as u v} : Derives a u → DerivesAll as v → DerivesAll (a :: as) (u ++ v)
end

/-- `text` starts with tokens of the kinds `ks` and goes on with `rest`; each token is read with
a driver in `D`. -/
inductive Tokens (D : Driver → Prop) : List Char → List ℕ → List Char → Prop where
  | nil (text) : Tokens D text [] text
  | cons {d text tok mid ks rest} : D d → Props.Lexes d text tok mid → Tokens D mid ks rest →
      Tokens D text (tok.sym :: ks) rest

end Spec
end STLRom
