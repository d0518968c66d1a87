set_option autoImplicit false

/-!
The key of a path on Windows: `VfsPath::encode` and `windows_paths` of `/repo/crates/vfs/src/vfs_path.rs`.
The components of a path are those that `std::path` finds; `Prefix::kind` has drive letters in upper case.
-/

namespace Verif.Paths.Windows

/-- A text in UTF-16 code units. -/
abbrev Wide := List Nat

/-- The character `\`. -/
def backslash : Nat := 92

/-- `std::path::Prefix`. -/
inductive Prefix where
  | verbatim (c : Wide)
  | verbatimUNC (server share : Wide)
  | verbatimDisk (d : Nat)
  | deviceNS (device : Wide)
  | unc (server share : Wide)
  | disk (d : Nat)
  deriving DecidableEq, Repr

/-- `std::path::Component`; `.` and `..` do not occur in a normalised path (vfs_path.rs:277-281). -/
inductive Component where
  | pre (p : Prefix)
  | root
  | normal (name : Wide)
  deriving DecidableEq, Repr

/-- vfs_path.rs:179-184 and 174, a code unit as two bytes, the lower one first. -/
def encodeUnit (w : Nat) : List Nat := [w % 256, w / 256]

/-- vfs_path.rs:170-177 and 186-193, a text. -/
def encodeText (t : Wide) : List Nat := t.flatMap encodeUnit

/-- vfs_path.rs:195-199, `SEP`, `VERBATIM`, `UNC`, `DEVICE`, `COLON`. -/
def SEP : Wide := [92]
def VERBATIM : Wide := [92, 92, 63, 92]
def UNC : Wide := [85, 78, 67]
def DEVICE : Wide := [92, 92, 46, 92]
def COLON : Wide := [58]

/-- vfs_path.rs:201-238, a prefix. -/
def Prefix.encode : Prefix → List Nat
  | .verbatim c => encodeText VERBATIM ++ encodeText c
  | .verbatimUNC server share =>
    encodeText VERBATIM ++ encodeText UNC ++ encodeText SEP ++ encodeText server ++ encodeText SEP ++ encodeText share
  | .verbatimDisk d => encodeText VERBATIM ++ encodeUnit d ++ encodeText COLON
  | .deviceNS device => encodeText DEVICE ++ encodeText device
  | .unc server share =>
    encodeText SEP ++ encodeText SEP ++ encodeText server ++ encodeText SEP ++ encodeText share
  | .disk d => encodeUnit d ++ encodeText COLON

/-- What the loop adds for one component behind the separator, vfs_path.rs:132-143. -/
def Component.encode (addSep : Bool) : Component → List Nat
  | .pre p => p.encode
  | .root => if addSep then [] else encodeText SEP
  | .normal name => encodeText name

/-- The loop, vfs_path.rs:126-147. -/
def encodeLoop : Bool → List Nat → List Component → List Nat
  | _, buf, [] => buf
  | addSep, buf, c :: cs =>
    let buf := if addSep then buf ++ encodeText SEP else buf
    let new := c.encode addSep
    encodeLoop (!new.isEmpty) (buf ++ new) cs

/-- vfs_path.rs:113-148, `encode` of a path of the file system: the tag 0, then its components. -/
def encode (cs : List Component) : List Nat := encodeLoop false [0] cs

/-- vfs_path.rs:113-118 and 159, `encode` of a virtual path, given in bytes. -/
def encodeVirtual (bytes : List Nat) : List Nat := 1 :: bytes

end Verif.Paths.Windows
