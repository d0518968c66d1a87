import Verif.Text.Spec

/-!
Model of `crates/ide_db/src/line_index.rs`.

Simplifications: `TextSize`/`u32`/`usize` are `Nat` (texts below 4 GiB); the hash map
`utf16_lines` is an association list to which entries are only added under fresh keys;
`slice::partition_point` is "number of leading elements satisfying the predicate" (its
documented result on a partitioned slice).  Panics (subtraction underflow, index out of
range, reversed `TextRange`) are `none`.
-/

namespace Verif.LineIndex

/-- `Utf16Char`, line_index.rs:33-38. -/
structure Utf16Char where
  start : Nat
  stop : Nat
deriving DecidableEq, Repr

/-- `Utf16Char::len`, line_index.rs:42-44. -/
def Utf16Char.len (c : Utf16Char) : Nat := c.stop - c.start

/-- `Utf16Char::len_utf16`, line_index.rs:47-53. -/
def Utf16Char.lenUtf16 (c : Utf16Char) : Nat := if c.len = 4 then 2 else 1

/-- `LineIndex`, line_index.rs:9-14. -/
structure LineIndex where
  newlines : List Nat
  utf16Lines : List (Nat × List Utf16Char)
deriving DecidableEq, Repr

/-- `LineCol` (and `LineColUtf16`), line_index.rs:17-30. -/
structure LineCol where
  line : Nat
  col : Nat
deriving DecidableEq, Repr

/-- The local variables of `LineIndex::new`, line_index.rs:58-64. -/
structure NewState where
  utf16Lines : List (Nat × List Utf16Char)
  utf16Chars : List Utf16Char
  newlines : List Nat
  currRow : Nat
  currCol : Nat
  line : Nat
deriving DecidableEq, Repr

/-- Initial values, line_index.rs:58-64. -/
def NewState.init : NewState :=
  { utf16Lines := [], utf16Chars := [], newlines := [0], currRow := 0, currCol := 0, line := 0 }

/-- "Save any utf-16 characters seen", line_index.rs:71-75 and 90-93. -/
def saveChars (lines : List (Nat × List Utf16Char)) (line : Nat) (chars : List Utf16Char) :
    List (Nat × List Utf16Char) :=
  if chars.isEmpty then lines else lines ++ [(line, chars)]

/-- Body of the loop of `LineIndex::new`, line_index.rs:65-88. -/
def newStep (s : NewState) (c : Char) : NewState :=
  let cLen := c.utf8Size
  let currRow := s.currRow + cLen
  if c = '\n' then
    { utf16Lines := saveChars s.utf16Lines s.line s.utf16Chars
      utf16Chars := []
      newlines := s.newlines ++ [currRow]
      currRow := currRow
      currCol := 0
      line := s.line + 1 }
  else
    { s with
      currRow := currRow
      utf16Chars :=
        if c.val.toNat < 128 then s.utf16Chars
        else s.utf16Chars ++ [{ start := s.currCol, stop := s.currCol + cLen }]
      currCol := s.currCol + cLen }

/-- `LineIndex::new`, line_index.rs:57-96. -/
def new (text : Text) : LineIndex :=
  let s := text.foldl newStep NewState.init
  { newlines := s.newlines, utf16Lines := saveChars s.utf16Lines s.line s.utf16Chars }

/-- `slice::partition_point`. -/
def partitionPoint (p : Nat → Bool) (l : List Nat) : Nat := (l.takeWhile p).length

/-- `LineIndex::line_col`, line_index.rs:98-103. -/
def LineIndex.lineCol (li : LineIndex) (offset : Nat) : Option LineCol :=
  match partitionPoint (fun it => it ≤ offset) li.newlines with
  | 0 => none
  | line + 1 =>
    match li.newlines[line]? with
    | none => none
    | some lineStart => if lineStart ≤ offset then some ⟨line, offset - lineStart⟩ else none

/-- `LineIndex::offset`, line_index.rs:105-107. -/
def LineIndex.offset (li : LineIndex) (lc : LineCol) : Option Nat :=
  match li.newlines[lc.line]? with
  | none => none
  | some start => some (start + lc.col)

/-- The non-ASCII characters recorded for a line (`utf16_lines.get`). -/
def LineIndex.chars (li : LineIndex) (line : Nat) : List Utf16Char :=
  (li.utf16Lines.lookup line).getD []

/-- Loop of `utf8_to_utf16_col`, line_index.rs:135-143. -/
def toUtf16Loop (col : Nat) : List Utf16Char → Nat → Option Nat
  | [], res => some res
  | c :: cs, res =>
    if c.stop ≤ col then
      let d := c.len - c.lenUtf16
      if d ≤ res then toUtf16Loop col cs (res - d) else none
    else some res

/-- `utf8_to_utf16_col`, line_index.rs:132-146. -/
def LineIndex.utf8ToUtf16Col (li : LineIndex) (line col : Nat) : Option Nat :=
  toUtf16Loop col (li.chars line) col

/-- Loop of `utf16_to_utf8_col`, line_index.rs:150-158. -/
def toUtf8Loop : List Utf16Char → Nat → Nat
  | [], col => col
  | c :: cs, col =>
    if col > c.start then toUtf8Loop cs (col + (c.len - c.lenUtf16)) else col

/-- `utf16_to_utf8_col`, line_index.rs:148-162. -/
def LineIndex.utf16ToUtf8Col (li : LineIndex) (line col : Nat) : Nat :=
  toUtf8Loop (li.chars line) col

/-- `LineIndex::to_utf16`, line_index.rs:109-112. -/
def LineIndex.toUtf16 (li : LineIndex) (lc : LineCol) : Option LineCol :=
  match li.utf8ToUtf16Col lc.line lc.col with
  | none => none
  | some col => some ⟨lc.line, col⟩

/-- `LineIndex::to_utf8`, line_index.rs:114-117. -/
def LineIndex.toUtf8 (li : LineIndex) (lc : LineCol) : LineCol :=
  ⟨lc.line, li.utf16ToUtf8Col lc.line lc.col⟩

/-- `TextRange::new` (crate text-size): panics on reversed bounds. -/
def mkRange (lo hi : Nat) : Option (Nat × Nat) := if lo ≤ hi then some (lo, hi) else none

/-- `LineIndex::lines`, line_index.rs:119-130; the returned iterator is collected. -/
def LineIndex.lines (li : LineIndex) (start stop : Nat) : Option (List (Nat × Nat)) :=
  let lo := partitionPoint (fun it => it < start) li.newlines
  let hi := partitionPoint (fun it => it ≤ stop) li.newlines
  if lo ≤ hi then
    let all := [start] ++ (li.newlines.take hi).drop lo ++ [stop]
    match (all.zip all.tail).mapM (fun x => mkRange x.1 x.2) with
    | none => none
    | some rs => some (rs.filter (fun r => r.1 != r.2))
  else none

end Verif.LineIndex
