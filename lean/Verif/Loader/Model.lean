import Verif.Paths.Model

/-!
Model of the directory filter: `crates/vfs/src/loader.rs` (`Entry`, `Directories`).
An absolute path is its list of components (`Path::starts_with` compares components).
-/

namespace Verif.Loader

abbrev AbsPath := List Text

/-- `Path::starts_with`. -/
def startsWith (path base : AbsPath) : Bool := base.isPrefixOf path

/-- `Path::extension().unwrap_or_default()`: what follows the last dot of the last component,
unless that dot starts the name or there is none. -/
def extension (path : AbsPath) : Text :=
  match path.getLast? with
  | none => []
  | some name =>
    match Paths.beforeLastDot name with
    | none => []
    | some [] => []
    | some stem => name.drop (stem.length + 1)

/-- `Directories`, loader.rs:26-30. -/
structure Directories where
  extensions : List Text
  include_ : List AbsPath
  exclude : List AbsPath

/-- The loop that chooses the include, loader.rs:164-172. -/
def chooseInclude (path : AbsPath) (includes : List AbsPath) : Option AbsPath :=
  includes.foldl (fun inc incl =>
    if startsWith path incl then
      some (match inc with
        | some prev => if startsWith prev incl then prev else incl
        | none => incl)
    else inc) none

/-- `Directories::includes_path`, loader.rs:163-180. -/
def Directories.includesPath (d : Directories) (path : AbsPath) : Bool :=
  match chooseInclude path d.include_ with
  | none => false
  | some inc => !d.exclude.any (fun excl => startsWith path excl && startsWith excl inc)

/-- `Directories::contains_file`, loader.rs:138-147. -/
def Directories.containsFile (d : Directories) (path : AbsPath) : Bool :=
  if d.extensions.all (fun it => it != extension path) then false else d.includesPath path

/-- `Directories::contains_dir`, loader.rs:153-155. -/
def Directories.containsDir (d : Directories) (path : AbsPath) : Bool := d.includesPath path

/-- `Entry`, loader.rs:8-13. -/
inductive Entry where
  | files (fs : List AbsPath)
  | directories (d : Directories)

/-- `Entry::contains_file`, loader.rs:117-122. -/
def Entry.containsFile : Entry → AbsPath → Bool
  | .files fs, path => fs.any (fun it => it == path)
  | .directories d, path => d.containsFile path

/-- `Entry::contains_dir`, loader.rs:128-133. -/
def Entry.containsDir : Entry → AbsPath → Bool
  | .files _, _ => false
  | .directories d, path => d.containsDir path

end Verif.Loader
