import Verif.Lexer.Model

set_option autoImplicit false

/-!
Model of the helpers of `/repo/crates/stdx/src/lib.rs`.  `none` is a panic.
-/

namespace Verif.Stdx

/-- `char::is_ascii_uppercase`. -/
def isUpper (c : Char) : Bool := decide (65 ≤ c.toNat ∧ c.toNat ≤ 90)

/-- `char::is_ascii_lowercase`. -/
def isLower (c : Char) : Bool := decide (97 ≤ c.toNat ∧ c.toNat ≤ 122)

/-- `char::to_ascii_lowercase`. -/
def toLower (c : Char) : Char := if isUpper c then Char.ofNat (c.toNat + 32) else c

/-- `char::to_ascii_uppercase`. -/
def toUpper (c : Char) : Char := if isLower c then Char.ofNat (c.toNat - 32) else c

/-- The loop of `to_pascal_case`, stdx/src/lib.rs:39-48; `buf` is the text so far. -/
def pascalLoop : Text → Bool → Text → Text
  | [], _, buf => buf
  | c :: cs, prevIsUnderscore, buf =>
    if c = '_' then pascalLoop cs true buf
    else if prevIsUnderscore then pascalLoop cs false (buf ++ [toUpper c])
    else pascalLoop cs prevIsUnderscore (buf ++ [toLower c])

/-- `to_pascal_case`, stdx/src/lib.rs:36-50. -/
def toPascalCase (s : Text) : Text := pascalLoop s true []

/-- The loop of `to_snake_case`, stdx/src/lib.rs:61-72. -/
def snakeLoop (changeCase : Char → Char) : Text → Bool → Text → Text
  | [], _, buf => buf
  | c :: cs, prev, buf =>
    let buf := if isUpper c && prev then (if buf.getLast? ≠ some '_' then buf ++ ['_'] else buf) else buf
    snakeLoop changeCase cs true (buf ++ [changeCase c])

/-- `to_snake_case`, stdx/src/lib.rs:58-74. -/
def toSnakeCase (s : Text) (changeCase : Char → Char) : Text := snakeLoop changeCase s false []

/-- `to_lower_snake_case`, stdx/src/lib.rs:52-54. -/
def toLowerSnakeCase (s : Text) : Text := toSnakeCase s toLower

/-- `to_upper_snake_case`, stdx/src/lib.rs:55-57. -/
def toUpperSnakeCase (s : Text) : Text := toSnakeCase s toUpper

/-- `replace`, stdx/src/lib.rs:76-82 (`str::replace` of a character by a text). -/
def replace (buf : Text) (frm : Char) (to : Text) : Text :=
  if buf.contains frm then buf.flatMap fun c => if c = frm then to else [c] else buf

/-- `str::split_inclusive('\n')`: each piece ends with its newline, except possibly the last. -/
def splitInclusive : Text → List Text
  | [] => []
  | c :: cs =>
    if c = '\n' then [c] :: splitInclusive cs
    else match splitInclusive cs with
      | [] => [[c]]
      | l :: ls => (c :: l) :: ls

/-- The line without its ending, as `str::lines` yields it: `\n` is removed, and a `\r` before it. -/
def stripEnding (line : Text) : Text :=
  if line.getLast? = some '\n' then
    let line := line.dropLast
    if line.getLast? = some '\r' then line.dropLast else line
  else line

/-- `str::lines`. -/
def lines (text : Text) : List Text := (splitInclusive text).map stripEnding

/-- `str::trim_start`. -/
def trimStart (s : Text) : Text := s.dropWhile Lexer.isUnicodeWs

/-- `str::trim`. -/
def trim (s : Text) : Text := ((trimStart s).reverse.dropWhile Lexer.isUnicodeWs).reverse

/-- `Iterator::min` on numbers. -/
def minimum : List Nat → Option Nat
  | [] => none
  | n :: ns => some (ns.foldl min n)

/-- The indentation `trim_indent` removes, stdx/src/lib.rs:88-93. -/
def indentOf (text : Text) : Nat :=
  (minimum (((lines text).filter fun it => !(trim it).isEmpty).map
    fun it => byteLen it - byteLen (trimStart it))).getD 0

/-- The closure of stdx/src/lib.rs:96-102, for one line. -/
def trimLine (indent : Nat) (line : Text) : Option Text :=
  if byteLen line ≤ indent then some (line.dropWhile (· == ' '))
  else Lexer.sliceFrom line indent

/-- `trim_indent`, stdx/src/lib.rs:84-105. -/
def trimIndent (text : Text) : Option Text :=
  let text := if text.head? = some '\n' then text.drop 1 else text
  ((splitInclusive text).mapM (trimLine (indentOf text))).map List.flatten

/-- `slice::partition_point`: the binary search of the standard library on `l[a..b]`. -/
def partitionPoint {T : Type} (l : List T) (pred : T → Bool) (a b : Nat) : Nat :=
  if _h : a < b then
    let mid := a + (b - a) / 2
    match l[mid]? with
    | none => a
    | some x => if pred x then partitionPoint l pred (mid + 1) b else partitionPoint l pred a mid
  else a
termination_by b - a

/-- `equal_range_by`, stdx/src/lib.rs:107-114: the start and the end of the range. -/
def equalRangeBy {T : Type} (slice : List T) (key : T → Ordering) : Nat × Nat :=
  let start := partitionPoint slice (fun it => key it == .lt) 0 slice.length
  let rest := slice.drop start
  let len := partitionPoint rest (fun it => key it == .eq) 0 rest.length
  (start, start + len)

/-- `iter_eq_by`, stdx/src/lib.rs:168-194. -/
def iterEqBy {A B : Type} (eq : A → B → Bool) : List A → List B → Bool
  | [], other => other.isEmpty
  | _ :: _, [] => false
  | x :: this, y :: other => if !eq x y then false else iterEqBy eq this other

end Verif.Stdx
