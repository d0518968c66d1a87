import Verif.Urls.Model
import Verif.Paths.Spec

set_option autoImplicit false

/-! What a URI says about a file, in terms of the names on the way to it. -/

namespace Verif.Urls.Spec

open Verif.Paths.Spec

/-- Every character is a byte. -/
def Bytes (t : Text) : Prop := ∀ c, c ∈ t → c.toNat < 256

/-- The characters of a name that a URI shows as they are: visible ASCII without ``"#%/<>?`{}``. -/
def Plain (c : Char) : Prop := 32 < c.toNat ∧ c.toNat < 127 ∧ c ∉ "\"#%/<>?`{}".toList

/-- The sixteen digits. -/
def digits : Text := "0123456789ABCDEF".toList

/-- The one spelling of a name in a URI: plain characters as they are, every other byte as `%` and two digits. -/
inductive Spelled : Text → Text → Prop where
  | nil : Spelled [] []
  | plain {c : Char} {n s : Text} : Plain c → Spelled n s → Spelled (c :: n) (c :: s)
  | escaped {c hi lo : Char} {n s : Text} : ¬ Plain c → digits[c.toNat / 16]? = some hi → digits[c.toNat % 16]? = some lo →
      Spelled n s → Spelled (c :: n) ('%' :: hi :: lo :: s)

/-- The paths of URIs with all names in their one spelling. -/
inductive SpelledPath : List Text → Text → Prop where
  | nil : SpelledPath [] []
  | cons {n s : Text} {ns : List Text} {t : Text} : Spelled n s → SpelledPath ns t → SpelledPath (n :: ns) ('/' :: s ++ t)

/-- The URI is the one that the path of `names` has. -/
def UriOf (names : List Text) (u : Url) : Prop :=
  u.scheme = "file".toList ∧ u.host = none ∧ u.query = none ∧ u.fragment = none ∧
  if names = [] then u.path = ['/'] else SpelledPath names u.path

/-- The URI is the one that some file has. -/
def Canonical (u : Url) : Prop := ∃ names : List Text, (∀ n, n ∈ names → Name n ∧ Bytes n) ∧ UriOf names u

/-- The path of a file, given by the names on the way to it. -/
def pathOf (names : List Text) : Text := if names = [] then ['/'] else render names

/-- A digit, in either case, and its value. -/
def Digit (c : Char) (x : Nat) : Prop := digits[x]? = some c ∨ "0123456789abcdef".toList[x]? = some c

/-- A letter, in either case, and the letter in lower case. -/
def LowerCase (letter lower : Char) : Prop :=
  ∃ i : Nat, ("ABCDEFGHIJKLMNOPQRSTUVWXYZ".toList[i]? = some letter ∨ "abcdefghijklmnopqrstuvwxyz".toList[i]? = some letter) ∧
    "abcdefghijklmnopqrstuvwxyz".toList[i]? = some lower

/-- What a segment of a URI stands for. -/
inductive Stands : Text → Text → Prop where
  | nil : Stands [] []
  | byte {h l : Char} {x y : Nat} {s t : Text} : Digit h x → Digit l y → Stands s t →
      Stands ('%' :: h :: l :: s) (Char.ofNat (16 * x + y) :: t)
  | self {c : Char} {s t : Text} : (c = '%' → ∀ h l r, s = h :: l :: r → (∀ x, ¬ Digit h x) ∨ ∀ x, ¬ Digit l x) → Stands s t →
      Stands (c :: s) (c :: t)

end Verif.Urls.Spec
