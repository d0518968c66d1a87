import Verif.Text.Spec
import Verif.Edits.Model
import Verif.Kinds.Model

set_option autoImplicit false

/-!
Model of the lexer, `/repo/crates/parser/src/lexer.rs`.

* Text is `List Char`; all lengths and offsets are byte lengths (`byteLen`).
* `none` is a panic: `todo!()` in `find_token`, or slicing off a character boundary.
* `TextSize` (`u32`) is `Nat`: texts below 4 GiB are assumed.
-/

namespace Verif.Lexer

/-- `&text[n..]`; `none` is the panic for an offset off a character boundary or past the end. -/
def sliceFrom (text : Text) (n : Nat) : Option Text :=
  (Edits.splitAtByte n text).map Prod.snd

/-- `&text[a..b]`; `none` is the panic. -/
def sliceRange (text : Text) (a b : Nat) : Option Text :=
  if a ≤ b then
    match sliceFrom text a with
    | none => none
    | some t => (Edits.splitAtByte (b - a) t).map Prod.fst
  else none

/-- `str::starts_with` with a literal. -/
def startsWith (text : Text) (lit : String) : Bool := lit.toList.isPrefixOf text

/-- lexer.rs:167, the three whitespace characters of the lexer. -/
def isWs (c : Char) : Bool := c == ' ' || c == '\n' || c == '\t'

/-- lexer.rs:188, `'0'..='9'`. -/
def isDigit (c : Char) : Bool := '0' ≤ c && c ≤ '9'

/-- lexer.rs:201, `'A'..='Z' | 'a'..='z' | '_'`. -/
def isNameStart (c : Char) : Bool :=
  ('A' ≤ c && c ≤ 'Z') || ('a' ≤ c && c ≤ 'z') || c == '_'

/-- lexer.rs:329, `'a'..='z' | 'A'..='Z' | '_' | '0'..='9'`. -/
def isNameChar (c : Char) : Bool := isNameStart c || isDigit c

/-- lexer.rs:342, `'a'..='f' | 'A'..='F' | '0'..='9'`. -/
def isHexDigit (c : Char) : Bool :=
  ('a' ≤ c && c ≤ 'f') || ('A' ≤ c && c ≤ 'F') || isDigit c

/-- lexer.rs:168-178: the number of leading whitespace characters (each is one byte, so the
byte-indexed loop never slices off a boundary). -/
def wsRun : Text → Nat
  | [] => 0
  | c :: cs => if isWs c then wsRun cs + 1 else 0

/-- lexer.rs:182, `char_indices().find(newline)`: the byte offset of the first newline. -/
def newlinePos : Text → Option Nat
  | [] => none
  | c :: cs => if c == '\n' then some 0 else (newlinePos cs).map (· + c.utf8Size)

/-- lexer.rs:327-331, `get_name_len`. -/
def getNameLen (text : Text) : Nat :=
  (text.findIdx? (fun c => !isNameChar c)).getD (byteLen text)

/-- lexer.rs:349-361, `get_number_maybe_with_suffix`; `none` when the slice panics. -/
def getNumberMaybeWithSuffix (text : Text) (numLen : Nat) : Option (Kind × Nat) :=
  match sliceFrom text numLen with
  | none => none
  | some rest =>
    if startsWith rest "u8" then some (.INTEGER_NUMBER, numLen + 2)
    else if startsWith rest "u64" then some (.INTEGER_NUMBER, numLen + 3)
    else if startsWith rest "u128" then some (.INTEGER_NUMBER, numLen + 4)
    else some (.INTEGER_NUMBER, numLen)

/-- lexer.rs:333-337, `get_decimal_number` (`position` counts characters). -/
def getDecimalNumber (text : Text) : Option (Kind × Nat) :=
  getNumberMaybeWithSuffix text ((text.findIdx? (fun c => !isDigit c)).getD (byteLen text))

/-- `str::find` with a predicate: the byte offset of the first match. -/
def findByte (p : Char → Bool) : Text → Option Nat
  | [] => none
  | c :: cs => if p c then some 0 else (findByte p cs).map (· + c.utf8Size)

/-- lexer.rs:340-345, `get_hex_number`. -/
def getHexNumber (text : Text) : Option (Kind × Nat) :=
  getNumberMaybeWithSuffix text ((findByte (fun c => !isHexDigit c) text).getD (byteLen text))

/-- lexer.rs:364-379, `get_string_len`: counts characters up to the closing quote. -/
def getStringLen : Text → Option Nat
  | [] => none
  | c :: cs =>
    if c == '\\' then
      match cs with
      | [] => none
      | _ :: cs' => (getStringLen cs').map (· + 2)
    else if c == '"' then some 0
    else (getStringLen cs).map (· + 1)

/-- `text.lines().next().unwrap()` on a non-empty text: the characters before the first
newline.  `lines` also drops a carriage return before the newline; `get_string_len`, the only
consumer, cannot tell the difference. -/
def firstLine (text : Text) : Text := text.takeWhile (· != '\n')

/-- lexer.rs:201-226, the arm for names and byte strings. -/
def nameOrByteString (text : Text) : Option (Kind × Nat) :=
  if startsWith text "x\"" || startsWith text "b\"" then
    match getStringLen ((firstLine text).drop 2) with
    | some lastQuote => some (.BYTE_STRING, 2 + lastQuote + 1)
    | none => none
  else
    let len := getNameLen text
    match sliceRange text 0 len with
    | none => none
    | some name => some ((Kind.fromKeyword name).getD .IDENT, len)

/-- lexer.rs:188-200, the arm for numbers. -/
def number (text : Text) : Option (Kind × Nat) :=
  if startsWith text "0x" && byteLen text > 2 then
    match sliceFrom text 2 with
    | none => none
    | some t =>
      match getHexNumber t with
      | none => none
      | some (tok, hexLen) =>
        if hexLen == 0 then some (.INTEGER_NUMBER, 1) else some (tok, 2 + hexLen)
  else getDecimalNumber text

/-- lexer.rs:227-308, the arms for punctuation in source order: the text tested with
`starts_with` (or the matched character itself), the kind and the length given by the arm.
The `match` on the first character is merged into the prefix tests. -/
def punctTable : List (String × Kind × Nat) := [
  ("&mut", .AMP_MUT, 4), ("&&", .AMP_AMP, 2), ("&", .AMP, 1), ("||", .PIPE_PIPE, 2),
  ("|", .PIPE, 1), ("==>", .EQ_EQ_GT, 3), ("==", .EQ_EQ, 2), ("=", .EQ, 1),
  ("!=", .BANG_EQ, 2), ("!", .BANG, 1), ("<==>", .LT_EQ_EQ_GT, 4), ("<=", .LT_EQ, 2),
  ("<<", .LT_LT, 2), ("<", .LT, 1), (">=", .GT_EQ, 2), (">>", .GT_GT, 2), (">", .GT, 1),
  ("::", .COLON_COLON, 2), (":", .COLON, 1), ("%", .MOD, 1), ("(", .L_PAREN, 1),
  (")", .R_PAREN, 1), ("[", .L_BRACK, 1), ("]", .R_BRACK, 1), ("*", .STAR, 1), ("+", .PLUS, 1),
  (",", .COMMA, 1), ("-", .MINUS, 1), ("..", .DOTDOT, 2), (".", .DOT, 1), ("/", .SLASH, 1),
  (";", .SEMICOLON, 1), ("^", .CARET, 1), ("{", .L_BRACE, 1), ("}", .R_BRACE, 1),
  ("#", .NUMSIGN, 1), ("@", .ATSIGN, 1)]

/-- lexer.rs:227-317, the arms for punctuation; `none` is the final `todo!()`. -/
def punct (text : Text) : Option (Kind × Nat) :=
  (punctTable.find? (fun e => startsWith text e.1)).map Prod.snd

/-- lexer.rs:159-321, `find_token`: the kind and byte length of the first token. -/
def findToken (text : Text) : Option (Kind × Nat) :=
  match text with
  | [] => some (.EOF, 0)
  | c :: cs =>
    if isWs c then some (.WHITESPACE, wsRun (c :: cs))
    else if c == '/' && startsWith (c :: cs) "//" then
      match newlinePos (c :: cs) with
      | some pos => some (.COMMENT, pos + 1)
      | none => some (.COMMENT, byteLen (c :: cs))
    else if isDigit c then number (c :: cs)
    else if isNameStart c then nameOrByteString (c :: cs)
    else punct (c :: cs)

/-- lexer.rs:5-18, `Token`. -/
structure Token where
  kind : Kind
  len : Nat
  deriving DecidableEq, Repr

/-- lexer.rs:20-27, `Lexer`.  `prev_end` is never read and left out. -/
structure Lexer where
  text : Text
  curStart : Nat
  curEnd : Nat
  token : Token
  allTokens : List Token
  deriving Repr

/-- lexer.rs:44-50, `Lexer::new`. -/
def new (text : Text) : Option Lexer :=
  match findToken text with
  | none => none
  | some (kind, len) => some ⟨text, 0, len, ⟨kind, len⟩, [⟨kind, len⟩]⟩

/-- lexer.rs:80-82, `current_text`. -/
def Lexer.currentText (lx : Lexer) : Option Text := sliceRange lx.text lx.curStart lx.curEnd

/-- `char::is_whitespace`: the Unicode `White_Space` property. -/
def isUnicodeWs (c : Char) : Bool :=
  let n := c.val.toNat
  (9 ≤ n && n ≤ 13) || n == 0x20 || n == 0x85 || n == 0xA0 || n == 0x1680 ||
  (0x2000 ≤ n && n ≤ 0x200A) || n == 0x2028 || n == 0x2029 || n == 0x202F || n == 0x205F ||
  n == 0x3000

/-- lexer.rs:94-99, `lookahead`. -/
def Lexer.lookahead (lx : Lexer) : Option Token :=
  match sliceFrom lx.text lx.curEnd with
  | none => none
  | some rest => (findToken (rest.dropWhile isUnicodeWs)).map fun t => ⟨t.1, t.2⟩

/-- lexer.rs:103-114, `lookahead_2`: the second token after the current one (trivia counts). -/
def Lexer.lookahead2 (lx : Lexer) : Option (Token × Token) :=
  match sliceFrom lx.text lx.curEnd with
  | none => none
  | some rest =>
    match findToken rest with
    | none => none
    | some (first, length) =>
      match sliceFrom lx.text (lx.curEnd + length) with
      | none => none
      | some rest2 => (findToken rest2).map fun t => (⟨first, length⟩, ⟨t.1, t.2⟩)

/-- lexer.rs:30-40, `lookahead_nth`; `none` also for the `todo!()` arm. -/
def Lexer.lookaheadNth (lx : Lexer) (n : Nat) : Option Token :=
  if n == 0 then some lx.token
  else if n == 1 then lx.lookahead
  else if n == 2 then lx.lookahead2.map Prod.snd
  else none

/-- lexer.rs:134-139, `advance_with_token`. -/
def Lexer.advanceWithToken (lx : Lexer) (kind : Kind) (len : Nat) : Lexer :=
  { lx with curEnd := lx.curStart + len, allTokens := lx.allTokens ++ [⟨kind, len⟩],
            token := ⟨kind, len⟩ }

/-- lexer.rs:116-132, `bump`: the recursion over trivia with a fuel argument.  `none` is a
panic; the equation `bump_eq` (Lemmas) shows that the fuel never runs out. -/
def Lexer.bumpFuel : Nat → Lexer → Option Lexer
  | 0, _ => none
  | fuel + 1, lx =>
    match sliceFrom lx.text lx.curEnd with
    | none => none
    | some rest =>
      let lx1 := { lx with curStart := byteLen lx.text - byteLen rest }
      match findToken rest with
      | none => none
      | some (kind, len) =>
        if kind.isTrivia then bumpFuel fuel (lx1.advanceWithToken kind len)
        else some (lx1.advanceWithToken kind len)

/-- lexer.rs:116-132, `bump`. -/
def Lexer.bump (lx : Lexer) : Option Lexer := lx.bumpFuel (byteLen lx.text + 1)

end Verif.Lexer
