import Verif.Paths.Model

set_option autoImplicit false

/-!
Absolute paths: `AbsPath` and `AbsPathBuf` of `/repo/crates/paths/src/lib.rs:10-223` and `ManifestPath` of
`/repo/crates/project_model/src/manifest_path.rs`, on unix.  The operations of `std::path` they call are modelled as
documented; comparisons of paths are comparisons of their components.
-/

namespace Verif.Paths.Abs

/-- `Path::is_absolute`. -/
def isAbsolute (p : Text) : Bool := p.head? == some '/'

/-- `AbsPathBuf::try_from`, paths/src/lib.rs:46-54. -/
def tryFrom (p : Text) : Option Text := if isAbsolute p then some p else none

/-- `Path::join` and `PathBuf::push`: an absolute path replaces, a separator is added where there is none. -/
def stdJoin (base p : Text) : Text :=
  if isAbsolute p then p
  else match base.getLast? with
    | some '/' => base ++ p
    | some _ => base ++ '/' :: p
    | none => p

/-- `AbsPath::join`, paths/src/lib.rs:134-136; `none` is the panic of `unwrap`. -/
def join (base p : Text) : Option Text := tryFrom (stdJoin base p)

/-- The segment has a component. -/
def counts (s : Text) : Bool := (segComponent s).isSome

/-- Trailing separators and `.`s removed: `Components::trim_right`. -/
def trimRight (segs : List Text) : List Text := (segs.reverse.dropWhile (fun s => !counts s)).reverse

/-- The path with these segments behind the root. -/
def ofSegments : List Text → Text
  | [] => ['/']
  | segs => segs.flatMap (fun s => '/' :: s)

/-- `Path::parent` of an absolute path: the last component is removed. -/
def stdParent : Text → Option Text
  | '/' :: rest =>
    match trimRight (splitSlash rest) with
    | [] => none
    | segs => some (ofSegments (trimRight segs.dropLast))
  | _ => none

/-- What an operation of the crate does: returns a path, returns nothing, or panics. -/
inductive Found where
  | path (p : Text)
  | nothing
  | panic
  deriving DecidableEq, Repr

/-- `AbsPath::parent`, paths/src/lib.rs:129-131; `AbsPath::assert` (123-126) panics on a relative path. -/
def parent (p : Text) : Found :=
  match stdParent p with
  | none => .nothing
  | some q => if isAbsolute q then .path q else .panic

/-- `AbsPathBuf::pop`, paths/src/lib.rs:91-93: the path is truncated to its parent. -/
def pop (p : Text) : Text × Bool :=
  match stdParent p with
  | none => (p, false)
  | some q => (q, true)

/-- `iter_after` of `std::path`: what follows a prefix. -/
def after {α : Type} [DecidableEq α] : List α → List α → Option (List α)
  | xs, [] => some xs
  | [], _ :: _ => none
  | x :: xs, y :: ys => if x = y then after xs ys else none

/-- `AbsPath::strip_prefix`, paths/src/lib.rs:163-165: the components of the relative path. -/
def stripPrefix (p base : Text) : Option (List Component) := after (components p) (components base)

/-- `AbsPath::starts_with`, paths/src/lib.rs:166-168. -/
def startsWith (p base : Text) : Bool := (after (components p) (components base)).isSome

/-- `AbsPath::ends_with`, paths/src/lib.rs:169-171. -/
def endsWith (p suffix : Text) : Bool := (after (components p).reverse (components suffix).reverse).isSome

/-- `ManifestPath::try_from`, manifest_path.rs:20-30: `nothing` is the error. -/
def manifestPath (file : Text) : Found :=
  match parent file with
  | .path _ => .path file
  | .nothing => .nothing
  | .panic => .panic

/-- `ManifestPath::parent`, manifest_path.rs:34-36. -/
def manifestParent (file : Text) : Found :=
  match parent file with
  | .path q => .path q
  | _ => .panic

end Verif.Paths.Abs
