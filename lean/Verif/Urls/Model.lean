import Verif.Paths.Model

set_option autoImplicit false

/-!
The names of documents: `abs_path` and `vfs_path` of `/repo/crates/move_language_server/src/from_proto.rs:17-24`
and `url_from_abs_path` of `/repo/crates/move_language_server/src/to_proto.rs:47-77`.

A path on unix is a sequence of bytes.  Here it is a text whose characters have numbers below 256, one for each
byte.  The functions `Url::to_file_path`, `Url::from_file_path` (crate `url` 2.2.2), `percent_encode` and
`percent_decode` (crate `percent-encoding` 2.1.0) are not in the repository; they are modelled from their
documented behaviour.  Reading a URL from its text (`Url::parse`) is not modelled: the model starts from the
parts of a URL.  User names and ports are left out.
-/

namespace Verif.Urls

open Verif.Paths

/-- The parts of an `lsp_types::Url` that matter.  `path` begins with `/` unless the URL cannot be a base. -/
structure Url where
  scheme : Text
  host : Option Text
  path : Text
  query : Option Text
  fragment : Option Text
  deriving DecidableEq, Repr

/-- What a function of the server does: it returns, returns an error, or panics. -/
inductive Outcome (α : Type) where
  | ok (a : α)
  | error
  | panic
  deriving DecidableEq, Repr

/-! ## The crates `percent-encoding` and `url` -/

/-- The digits that `percent_encode` writes. -/
def hexDigit (n : Nat) : Char := "0123456789ABCDEF".toList.getD n '0'

/-- `char::to_digit(16)`. -/
def hexValue (c : Char) : Option Nat :=
  if '0' ≤ c ∧ c ≤ '9' then some (c.toNat - 48)
  else if 'a' ≤ c ∧ c ≤ 'f' then some (c.toNat - 87)
  else if 'A' ≤ c ∧ c ≤ 'F' then some (c.toNat - 55)
  else none

/-- The set `PATH_SEGMENT` of the crate `url`; bytes outside ASCII are always encoded. -/
def mustEncode (c : Char) : Bool :=
  c.toNat < 32 || 127 ≤ c.toNat || " \"<>`#?{}/%".toList.contains c

/-- `percent_encode(bytes, PATH_SEGMENT)`. -/
def percentEncode : Text → Text
  | [] => []
  | c :: cs =>
    if mustEncode c then '%' :: hexDigit (c.toNat / 16) :: hexDigit (c.toNat % 16) :: percentEncode cs
    else c :: percentEncode cs

/-- `percent_decode(bytes)`: a `%` that is not followed by two digits stands for itself. -/
def percentDecode : Text → Text
  | [] => []
  | [c] => [c]
  | [c, d] => [c, d]
  | c :: h :: l :: rest =>
    if c = '%' then
      match hexValue h, hexValue l with
      | some x, some y => Char.ofNat (16 * x + y) :: percentDecode rest
      | _, _ => c :: percentDecode (h :: l :: rest)
    else c :: percentDecode (h :: l :: rest)

/-- The bytes end in a drive letter: more than two bytes, the last two a letter and `:` or `|`. -/
def endsInDrive (t : Text) : Bool :=
  2 < t.length &&
  match t.reverse with
  | b :: a :: _ => (a.isAlpha) && (b == ':' || b == '|')
  | _ => false

/-- `Url::to_file_path` on unix.  The scheme is not looked at.  Some versions of the crate add a `/` behind a
drive letter at the end; `slash` says whether this one does. -/
def toFilePath (slash : Bool) (u : Url) : Option Text :=
  match u.path with
  | '/' :: rest =>
    if u.host = none ∨ u.host = some "localhost".toList then
      let bytes := (splitSlash rest).flatMap (fun s => '/' :: percentDecode s)
      some (if slash && endsInDrive bytes then bytes ++ ['/'] else bytes)
    else none
  | _ => none

/-- `Component::as_os_str`. -/
def componentText : Component → Text
  | .rootDir => ['/']
  | .curDir => ['.']
  | .parentDir => ['.', '.']
  | .normal name => name

/-- `Url::from_file_path` on unix: the components after the root. -/
def fromFilePath (p : Text) : Option Url :=
  if p.head? = some '/' then
    let path := (components p).tail.flatMap (fun c => '/' :: percentEncode (componentText c))
    some ⟨"file".toList, none, if path = [] then ['/'] else path, none, none⟩
  else none

/-! ## The server on unix -/

/-- from_proto.rs:17-20, `abs_path`; line 19 panics when the path is not absolute (paths/src/lib.rs:46-54). -/
def absPath (slash : Bool) (u : Url) : Outcome Text :=
  match toFilePath slash u with
  | none => .error
  | some p => if p.head? = some '/' then .ok p else .panic

/-- from_proto.rs:22-24, `vfs_path`: the path is normalised (vfs_path.rs:277-281). -/
def vfsPath (slash : Bool) (u : Url) : Outcome Text :=
  match absPath slash u with
  | .ok p => .ok (normalizePath p)
  | .error => .error
  | .panic => .panic

/-- to_proto.rs:51-60, `url_from_abs_path` on unix, where no path has a prefix; line 52 panics when
`from_file_path` fails. -/
def urlFromAbsPath (p : Text) : Outcome Url :=
  match fromFilePath p with
  | none => .panic
  | some u => .ok u

/-- The URL under which the server speaks about a document that was opened under `u`: main_loop.rs:256-272 stores
the document under `vfs_path(u)`, global_state.rs:244-248 (`file_id_to_url`) makes the URL from that path again. -/
def published (slash : Bool) (u : Url) : Outcome Url :=
  match vfsPath slash u with
  | .ok p => urlFromAbsPath p
  | .error => .error
  | .panic => .panic

/-! ## Drive letters on Windows -/

/-- `char::to_ascii_lowercase`. -/
def lowerAscii (c : Char) : Char := if 'A' ≤ c ∧ c ≤ 'Z' then Char.ofNat (c.toNat + 32) else c

/-- Everything before the first `:` and everything after it. -/
def splitColon : Text → Option (Text × Text)
  | [] => none
  | c :: cs =>
    if c = ':' then some ([], cs)
    else match splitColon cs with
      | some (a, b) => some (c :: a, b)
      | none => none

/-- to_proto.rs:62-76: the text of the URL of a path that begins with a drive.  `splitn(3, ':')` yields three
parts if there are two colons; the second part is put in lower case. -/
def lowerDrive (url : Text) : Text :=
  match splitColon url with
  | none => url
  | some (scheme, rest) =>
    match splitColon rest with
    | none => url
    | some (drive, rest) => scheme ++ ':' :: drive.map lowerAscii ++ ':' :: rest

/-- `Url::from_file_path` on Windows, as a text, for a path that consists of a drive, the root and names. -/
def driveUrl (letter : Char) (names : List Text) : Text :=
  "file:///".toList ++ letter :: ':' ::
    (if names = [] then ['/'] else names.flatMap (fun n => '/' :: percentEncode n))

/-- `Url::to_file_path` on Windows for a URL without host: the drive is the first segment. -/
def toFilePathWindows (u : Url) : Option Text :=
  match u.path with
  | '/' :: rest =>
    match splitSlash rest with
    | [] => none
    | first :: segments =>
      let drive := match first with
        | [c, d] => if c.isAlpha ∧ d = ':' then some [c, ':'] else none
        | [c, p, t, a] => if c.isAlpha ∧ p = '%' ∧ t = '3' ∧ (a = 'a' ∨ a = 'A') then some [c, ':'] else none
        | _ => none
      match drive with
      | none => none
      | some d => some (d ++ segments.flatMap (fun s => '\\' :: percentDecode s))
  | _ => none

/-- `Path::is_absolute` on Windows for a text that begins with a drive: a separator follows. -/
def absoluteWindows : Text → Bool
  | _ :: ':' :: c :: _ => c == '\\' || c == '/'
  | _ => false

/-- from_proto.rs:17-20, `abs_path`, on Windows, for a URL without host. -/
def absPathWindows (u : Url) : Outcome Text :=
  match toFilePathWindows u with
  | none => .error
  | some p => if absoluteWindows p then .ok p else .panic

end Verif.Urls
