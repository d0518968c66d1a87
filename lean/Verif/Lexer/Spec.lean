import Verif.Lexer.Model

set_option autoImplicit false

/-!
Vocabulary for the lexer properties.
-/

namespace Verif.Lexer

/-- `Steps t ts r`: reading tokens one after the other from the start of `t` gives the tokens
`ts` (kind and text) and leaves the text `r`. -/
inductive Steps : Text → List (Kind × Text) → Text → Prop where
  | nil (t : Text) : Steps t [] t
  | cons {u r : Text} {k : Kind} {ts : List (Kind × Text)} {r' : Text} :
      u ≠ [] → findToken (u ++ r) = some (k, byteLen u) → Steps r ts r' →
      Steps (u ++ r) ((k, u) :: ts) r'

/-- `Lexes t ts`: the text `t` is the sequence of tokens `ts`. -/
def Lexes (t : Text) (ts : List (Kind × Text)) : Prop := Steps t ts []

/-- The tokens that are not whitespace or comments. -/
def significant (ts : List (Kind × Text)) : List (Kind × Text) :=
  ts.filter fun t => !(t.1 == .WHITESPACE || t.1 == .COMMENT)

/-- The states of the lexer while a text is read: created on the text, then advanced any
number of times, but not past the end of the input. -/
inductive Reads (t : Text) : Lexer → Prop where
  | new {lx : Lexer} : new t = some lx → Reads t lx
  | bump {lx lx' : Lexer} : Reads t lx → lx.token.kind ≠ .EOF → lx.bump = some lx' → Reads t lx'

/-- A character of a word: an ASCII letter or digit, or an underscore. -/
def wordChar (c : Char) : Bool := c.isAlphanum || c == '_'

/-- A character that starts a word: an ASCII letter or an underscore. -/
def wordStart (c : Char) : Bool := c.isAlpha || c == '_'

/-- The keywords of the language and their token kinds (the words of the `T!` macro,
/repo/crates/parser/src/syntax_kind/generated.rs:255). -/
def keywordKinds : List (String × Kind) := [
  ("struct", .STRUCT_KW), ("script", .SCRIPT_KW), ("module", .MODULE_KW), ("const", .CONST_KW),
  ("use", .USE_KW), ("as", .AS_KW), ("let", .LET_KW), ("mut", .MUT_KW), ("return", .RETURN_KW),
  ("fun", .FUN_KW), ("true", .TRUE_KW), ("false", .FALSE_KW), ("move", .MOVE_KW),
  ("while", .WHILE_KW), ("if", .IF_KW), ("else", .ELSE_KW), ("break", .BREAK_KW),
  ("continue", .CONTINUE_KW), ("address", .ADDRESS_KW)]

/-- The punctuation of the language and its token kinds (the symbols of the `T!` macro, without
`_`, which is a word). -/
def punctuation : List (String × Kind) := [
  (":", .COLON), ("::", .COLON_COLON), (";", .SEMICOLON), (",", .COMMA), ("(", .L_PAREN),
  (")", .R_PAREN), ("{", .L_BRACE), ("}", .R_BRACE), ("[", .L_BRACK), ("]", .R_BRACK),
  ("+", .PLUS), ("-", .MINUS), ("*", .STAR), ("/", .SLASH), ("%", .MOD), ("#", .NUMSIGN),
  ("@", .ATSIGN), (".", .DOT), ("..", .DOTDOT), ("&", .AMP), ("&&", .AMP_AMP),
  ("&mut", .AMP_MUT), ("^", .CARET), ("|", .PIPE), ("||", .PIPE_PIPE), ("!", .BANG),
  ("!=", .BANG_EQ), ("=", .EQ), ("==", .EQ_EQ), ("==>", .EQ_EQ_GT), (">", .GT), (">>", .GT_GT),
  (">=", .GT_EQ), ("<", .LT), ("<<", .LT_LT), ("<=", .LT_EQ), ("<==>", .LT_EQ_EQ_GT)]

/-- A whitespace character of the language. -/
def Space (c : Char) : Prop := c = ' ' ∨ c = '\n' ∨ c = '\t'

/-- A text of whitespace and finished line comments. -/
inductive Trivia : Text → Prop where
  | nil : Trivia []
  | space {c : Char} {w : Text} : Space c → Trivia w → Trivia (c :: w)
  | comment {body w : Text} : '\n' ∉ body → Trivia w → Trivia ('/' :: '/' :: (body ++ '\n' :: w))

end Verif.Lexer
