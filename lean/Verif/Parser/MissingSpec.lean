import Verif.Lexer.Props
import Verif.Parser.Sink

set_option autoImplicit false

/-!
What the error messages of the parser say is missing.
-/

namespace Verif.Parser.Missing

open Kind

/-- The tokens that start an expression. -/
def exprStart : List Kind :=
  [TRUE_KW, FALSE_KW, INTEGER_NUMBER, HEX_STRING, BYTE_STRING, ATSIGN, IDENT, L_PAREN, L_BRACE, STAR, BANG, MINUS]

/-- All messages, each with the tokens that would have been accepted instead.  (A number that is written `0x…` is
also an address.  The message that tells of a `;` it has found is right about nothing else.) -/
def table : List (String × List Kind) := [
  ("expected COMMA", [COMMA]),
  ("expected COLON", [COLON]),
  ("expected R_PAREN", [R_PAREN]),
  ("expected R_BRACE", [R_BRACE]),
  ("expected GT", [GT]),
  ("expected SEMICOLON", [SEMICOLON]),
  ("expected a name", [IDENT]),
  ("expected ident", [IDENT]),
  ("expected identifier", [IDENT]),
  ("expected a field", [IDENT]),
  ("expected field name", [IDENT]),
  ("expected field declaration", [IDENT]),
  ("expected type parameter", [IDENT]),
  ("expected value parameter", [IDENT]),
  ("expected type", [IDENT, AMP]),
  ("missing type for function parameter", [COLON]),
  ("expected a pattern", [IDENT, MUT_KW, WILDCARD, L_PAREN]),
  ("expected pattern", [IDENT, MUT_KW, WILDCARD, L_PAREN]),
  ("expected address literal", [IDENT]),
  ("expected valid address", [IDENT]),
  ("expected expression", exprStart),
  ("expected a block", [L_BRACE]),
  ("expected `{`", [L_BRACE]),
  ("expected `;` or `{`", [SEMICOLON, L_BRACE]),
  ("expected function arguments", [L_PAREN]),
  ("expected an item", [FUN_KW, STRUCT_KW]),
  ("expected item, found `;`\nconsider removing this semicolon", Kind.all.filter (· != SEMICOLON)),
  ("expected module or script", [MODULE_KW, SCRIPT_KW, ADDRESS_KW])]

/-- The kind of the next token that is neither white space nor a comment; `EOF` if there is none. -/
def upcoming (ts : List (Kind × Text)) : Kind := ((Lexer.significant ts).head?.map Prod.fst).getD EOF

/-- The message `m` is right about the token `k`, or the end of the text, at which it is reported. -/
def Right (m : String) (k : Kind) : Prop := ∃ ks, (m, ks) ∈ table ∧ k ∉ ks

end Verif.Parser.Missing
