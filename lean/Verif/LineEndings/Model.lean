import Verif.Text.Spec

/-!
Model of `crates/move_language_server/src/line_index.rs` (`LineEndings::normalize`).

Bytes are `UInt8`; the mutable buffer is kept as the finished part before `tail`
(`done`) and the mutable slice `tail`; `buf = done ++ tail` at every moment.
-/

namespace Verif.LineEndings

/-- `LineEndings`, line_index.rs:22-25. -/
inductive LineEndings where
  | unix
  | dos
deriving DecidableEq, Repr

/-- The bytes of a Rust string (`String::into_bytes`). -/
def bytes : Text → List UInt8
  | [] => []
  | c :: cs => String.utf8EncodeChar c ++ bytes cs

def CR : UInt8 := 13
def LF : UInt8 := 10

/-- `find_crlf`, line_index.rs:64-66. -/
def findCrlf : List UInt8 → Option Nat
  | [] => none
  | [_] => none
  | a :: b :: r => if a = CR ∧ b = LF then some 0 else (findCrlf (b :: r)).map (· + 1)

/-- `tail.copy_within(src..srcEnd, 0)`: overwrite the front of `tail`. -/
def copyWithin (tail : List UInt8) (src srcEnd : Nat) : List UInt8 :=
  (tail.take srcEnd).drop src ++ tail.drop (srcEnd - src)

/-- The loop, line_index.rs:39-53.  Returns the buffer and `gap_len`; `none` when a slice
index is out of range.  `fuel` bounds the number of iterations (each one that continues
finds another pair, so the buffer length suffices; running out is also `none`, and the
theorem shows it does not happen). -/
def loop : Nat → List UInt8 → List UInt8 → Nat → Option (List UInt8 × Nat)
  | 0, _, _, _ => none
  | fuel + 1, done, tail, gap =>
    if gap ≤ tail.length then
      let idx := match findCrlf (tail.drop gap) with
        | none => tail.length
        | some i => i + gap
      let tail1 := copyWithin tail gap idx
      let done1 := done ++ tail1.take (idx - gap)
      let tail2 := tail1.drop (idx - gap)
      if tail2.length = gap then some (done1 ++ tail2, gap)
      else loop fuel done1 tail2 (gap + 1)
    else none

/-- `LineEndings::normalize`, line_index.rs:29-63, on the bytes of the string. -/
def normalizeBytes (src : List UInt8) : Option (List UInt8 × LineEndings) :=
  if src.contains CR then
    match loop (src.length + 1) [] src 0 with
    | none => none
    | some (buf, gap) => some (buf.take (buf.length - gap), LineEndings.dos)
  else some (src, LineEndings.unix)

/-- `normalize` as seen by its callers, on texts: used by the server model.  The theorem
`normalize_agrees` justifies it against the byte-level loop. -/
def normalize (src : Text) : Text × LineEndings :=
  let rec strip : Text → Text
    | [] => []
    | [c] => [c]
    | a :: b :: r => if a = '\r' ∧ b = '\n' then '\n' :: strip r else a :: strip (b :: r)
  (strip src, if src.contains '\r' then .dos else .unix)

end Verif.LineEndings
