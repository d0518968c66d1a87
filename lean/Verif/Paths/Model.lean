import Verif.Text.Spec

/-!
Model of `normalize_path` (`crates/paths/src/lib.rs:271-297`) and of `VirtualPath`
(`crates/vfs/src/vfs_path.rs:307-399`), on unix.  Paths are texts; a path that is not valid
UTF-8 is not modelled.
-/

namespace Verif.Paths

/-- `str::split('/')`: the segments between separators. -/
def splitSlash : Text → List Text
  | [] => [[]]
  | c :: cs =>
    if c = '/' then [] :: splitSlash cs
    else match splitSlash cs with
      | [] => [[c]]
      | s :: ss => (c :: s) :: ss

/-- `std::path::Component` on unix. -/
inductive Component where
  | rootDir
  | curDir
  | parentDir
  | normal (name : Text)
deriving DecidableEq, Repr

/-- The component of one segment; empty segments and `.` have none. -/
def segComponent (s : Text) : Option Component :=
  if s = [] ∨ s = ['.'] then none
  else if s = ['.', '.'] then some .parentDir
  else some (.normal s)

/-- `Path::components` on unix: a leading separator is the root, a leading `.` of a relative
path is kept, all other empty or `.` segments disappear. -/
def components (path : Text) : List Component :=
  (if path.head? = some '/' then [.rootDir]
   else if (splitSlash path).head? = some ['.'] then [.curDir] else [])
  ++ (splitSlash path).filterMap segComponent

/-- `PathBuf::push(name)` for a relative non-empty `name` on unix. -/
def push (ret name : Text) : Text :=
  if ret = [] ∨ ret.getLast? = some '/' then ret ++ name else ret ++ '/' :: name

/-- Everything before the last separator, if there is one. -/
def beforeLastSlash : Text → Option Text
  | [] => none
  | c :: cs =>
    match beforeLastSlash cs with
    | some p => some (c :: p)
    | none => if c = '/' then some [] else none

/-- `PathBuf::pop` on unix, for a path without repeated or trailing separators, which is what
`normalize_path` builds: the parent of `/` and of the empty path does not exist, the parent of `/a`
is `/`, that of `a` is the empty path. -/
def pop (ret : Text) : Text :=
  if ret = ['/'] ∨ ret = [] then ret
  else match beforeLastSlash ret with
    | none => []
    | some [] => ['/']
    | some p => p

/-- Loop body of `normalize_path`, paths/src/lib.rs:281-295. -/
def normalizeStep (ret : Text) : Component → Text
  | .rootDir => ['/']
  | .curDir => ret
  | .parentDir => pop ret
  | .normal c => push ret c

/-- `normalize_path`, paths/src/lib.rs:272-297; there are no prefix components on unix. -/
def normalizePath (path : Text) : Text := (components path).foldl normalizeStep []

/-- `VirtualPath::pop`, vfs_path.rs:335-342: `none` when it returns false. -/
def virtualPop (p : Text) : Option Text := beforeLastSlash p

/-- `path.trim_start_matches("./")`: removes all leading copies. -/
def trimDotSlash : Text → Text
  | '.' :: '/' :: rest => trimDotSlash rest
  | t => t

/-- `VirtualPath::join`, vfs_path.rs:354-365; the outer result is the `Option` of the code. -/
def virtualJoin (base : Text) : Text → Option Text
  | '.' :: '.' :: '/' :: rest =>
    match virtualPop base with
    | none => none
    | some b => virtualJoin b rest
  | path => some (base ++ '/' :: trimDotSlash path)

/-- `VirtualPath::name_and_extension`, vfs_path.rs:378-398: the final separator is dropped, the
file name is what follows the last separator. -/
def fileName (p : Text) : Text :=
  let p := if p.getLast? = some '/' then p.dropLast else p
  match beforeLastSlash p with
  | some pre => p.drop (pre.length + 1)
  | none => p

/-- What is before the last dot, if there is one. -/
def beforeLastDot : Text → Option Text
  | [] => none
  | c :: cs =>
    match beforeLastDot cs with
    | some p => some (c :: p)
    | none => if c = '.' then some [] else none

/-- The rest of `name_and_extension`: `rsplitn(2, '.')` and the match, vfs_path.rs:385-397. -/
def nameAndExtension (p : Text) : Option (Text × Option Text) :=
  let name := fileName p
  if name = [] then none
  else match beforeLastDot name with
    | none => some (name, none)
    | some [] => some (name, none)
    | some stem => some (stem, some (name.drop (stem.length + 1)))

end Verif.Paths
