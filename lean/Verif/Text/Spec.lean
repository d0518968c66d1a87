/-!
Vocabulary for texts shared by the specifications: nothing here is taken from the code
under verification.  A text is a list of Unicode scalar values.
-/

namespace Verif

/-- A text: what a Rust `String`/`&str` holds, as its sequence of characters. -/
abbrev Text := List Char

/-- Number of bytes of the UTF-8 encoding of a text (Rust `str::len`). -/
def byteLen : Text → Nat
  | [] => 0
  | c :: cs => c.utf8Size + byteLen cs

/-- Number of UTF-16 code units of one character: two for characters outside the basic
multilingual plane, one for all others. -/
def unit16 (c : Char) : Nat := if c.val.toNat ≥ 0x10000 then 2 else 1

/-- Number of UTF-16 code units of a text. -/
def utf16Len : Text → Nat
  | [] => 0
  | c :: cs => unit16 c + utf16Len cs

/-- The characters after the last newline of `p` (all of `p` if it has none). -/
def lastLine (p : Text) : Text := (p.reverse.takeWhile (· != '\n')).reverse

/-- Number of newline characters in `p`. -/
def newlineCount (p : Text) : Nat := p.count '\n'

/-- `off` is a character boundary of `t`. -/
def IsBoundary (t : Text) (off : Nat) : Prop := ∃ p q, t = p ++ q ∧ off = byteLen p

end Verif
