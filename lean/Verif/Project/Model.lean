import Verif.Text.Spec

set_option autoImplicit false

/-!
Model of the manifest discovery (`/repo/crates/project_model/src/lib.rs`) and of
`should_refresh_for_change` (`/repo/crates/move_language_server/src/reload.rs`), on unix.

A path is the list of the components behind its root, as `Path::components` yields them; comparison,
`parent`, `join` and `ends_with` of the standard library work on components.  Names that are not valid
UTF-8 are not modelled.
-/

namespace Verif.Project

/-- `std::path::Component` behind the root: `..` or a name. -/
inductive Comp where
  | parentDir
  | normal (name : Text)
  deriving DecidableEq, Repr

/-- An absolute path. -/
abbrev Path := List Comp

/-- `AbsPath::file_name().unwrap_or_default()`, paths/src/lib.rs:182-184: empty for `/` and for a path
that ends with `..`. -/
def fileName (path : Path) : Text :=
  match path.getLast? with
  | some (.normal name) => name
  | _ => []

/-- `AbsPath::parent`, paths/src/lib.rs:129-131. -/
def parent (path : Path) : Option Path := if path = [] then none else some path.dropLast

/-- `AbsPath::join` with one name, paths/src/lib.rs:134-136. -/
def join (path : Path) (name : Text) : Path := path ++ [.normal name]

/-- What the operating system answers. -/
structure FileSystem where
  /-- `fs::metadata(path).is_ok()` and `Path::exists` -/
  exists_ : Path → Bool
  /-- `read_dir`: an error, or the names in the order of the operating system; an entry can be an error -/
  readDir : Path → Option (List (Option Text))

/-- `"Dove.toml"`. -/
def doveToml : Text := "Dove.toml".toList

/-- `ManifestPath::try_from`, manifest_path.rs:23-30. -/
def manifestPath (file : Path) : Option Path := if (parent file).isNone then none else some file

/-- The loop of `find_in_parent_dirs`, project_model/src/lib.rs:75-87, on the path with this many
components of `path`. -/
def parentLoop (fs : FileSystem) (target : Text) (path : Path) : Nat → Option Path
  | 0 =>
    let candidate := join (path.take 0) target
    if fs.exists_ candidate && (manifestPath candidate).isSome then some candidate else none
  | n + 1 =>
    let candidate := join (path.take (n + 1)) target
    if fs.exists_ candidate && (manifestPath candidate).isSome then some candidate
    else parentLoop fs target path n

/-- `find_in_parent_dirs`, project_model/src/lib.rs:68-88. -/
def findInParentDirs (fs : FileSystem) (path : Path) (target : Text) : Option Path :=
  if fileName path = target ∧ (manifestPath path).isSome then some path
  else parentLoop fs target path path.length

/-- `find_cargo_toml_in_child_dir`, project_model/src/lib.rs:90-99. -/
def findInChildDirs (fs : FileSystem) (path : Path) (entities : List (Option Text)) : List Path :=
  (((entities.filterMap id).map fun it => join (join path it) doveToml).filter fs.exists_).filterMap manifestPath

/-- `ProjectManifest::discover`, project_model/src/lib.rs:54-100; `none` is the io error. -/
def discover (fs : FileSystem) (path : Path) : Option (List Path) :=
  match findInParentDirs fs path doveToml with
  | some it => some [it]
  | none =>
    match fs.readDir path with
    | none => none
    | some entities => some (findInChildDirs fs path entities)

/-- `ProjectManifest::discover_single`, project_model/src/lib.rs:41-52; `none` is an error. -/
def discoverSingle (fs : FileSystem) (path : Path) : Option Path :=
  match discover fs path with
  | none => none
  | some candidates =>
    match candidates.getLast? with
    | none => none
    | some res => if candidates.dropLast ≠ [] then none else some res

/-- `ProjectManifest::from_manifest_file`, project_model/src/lib.rs:26-39; `none` is an error. -/
def fromManifestFile (path : Path) : Option Path :=
  match manifestPath path with
  | none => none
  | some path => if fileName path = doveToml then some path else none

/-- The key by which paths are ordered: component by component, `..` before names, names by their
bytes, which is the order of their characters. -/
def sortKey (path : Path) : List (List Nat) :=
  path.map fun c => match c with
    | .parentDir => []
    | .normal name => 1 :: name.map Char.toNat

/-- `Ord` of paths. -/
def pathLe (a b : Path) : Bool := decide (sortKey a ≤ sortKey b)

/-- `ProjectManifest::discover_all`, project_model/src/lib.rs:102-112; `iter` is the order in which the
hash set is iterated. -/
def discoverAll (fs : FileSystem) (iter : List Path → List Path) (paths : List Path) : List Path :=
  (iter ((paths.filterMap (discover fs)).flatten)).mergeSort pathLe

/-- The start of the last extension of a name: `Path::extension`, none if the name has no dot behind its
first character. -/
def beforeLastDot : Text → Option Text
  | [] => none
  | c :: cs =>
    match beforeLastDot cs with
    | some p => some (c :: p)
    | none => if c = '.' then some [] else none

/-- `AbsPath::extension().unwrap_or_default()`, paths/src/lib.rs:185-187. -/
def extension (path : Path) : Text :=
  match beforeLastDot (fileName path) with
  | none => []
  | some [] => []
  | some stem => (fileName path).drop (stem.length + 1)

/-- `Path::ends_with` with a relative path of names. -/
def endsWith (path : Path) (suffix : List String) : Bool :=
  (suffix.map fun s => Comp.normal s.toList).isSuffixOf path

/-- `ChangeKind`, vfs/src/lib.rs. -/
inductive ChangeKind where
  | create | modify | delete
  deriving DecidableEq, Repr

/-- `IMPLICIT_TARGET_FILES`, reload.rs:93. -/
def implicitTargetFiles : List (List String) := [["build.rs"], ["src", "main.rs"], ["src", "lib.rs"]]

/-- `IMPLICIT_TARGET_DIRS`, reload.rs:94. -/
def implicitTargetDirs : List (List String) := [["src", "bin"], ["examples"], ["tests"], ["benches"]]

/-- `should_refresh_for_change`, reload.rs:92-126. -/
def shouldRefreshForChange (path : Path) (changeKind : ChangeKind) : Bool :=
  let name := fileName path
  if name = "Cargo.toml".toList ∨ name = "Cargo.lock".toList then true
  else if changeKind = .modify then false
  else if extension path ≠ "rs".toList then false
  else if implicitTargetFiles.any (endsWith path) then true
  else match parent path with
    | none => false
    | some dir =>
      if implicitTargetDirs.any (endsWith dir) then true
      else if name = "main.rs".toList then
        match parent dir with
        | none => false
        | some grandParent => implicitTargetDirs.any (endsWith grandParent)
      else false

end Verif.Project
