import Verif.FileSet.Model
import Verif.Text.Spec

/-!
Model of the inputs of the analysis database: `crates/base_db/src/change.rs`,
`crates/base_db/src/input.rs`, `crates/base_db/src/lib.rs:48-77` and
`crates/ide_db/src/apply_change.rs`.  `none` is a panic.

Simplified: salsa inputs are maps; durabilities only steer recomputation in salsa and are
left out; `idx as u32` is the identity (fewer than 2^32 roots).
-/

namespace Verif.Db

open Verif.FileSet

/-- `SourceRoot`, input.rs:21-29. -/
structure SourceRoot where
  isLibrary : Bool
  fileSet : FileSet

/-- `SourceRoot::iter`, input.rs:44-46. -/
def SourceRoot.iter (r : SourceRoot) : List Nat := r.fileSet.iter

/-- The salsa inputs, lib.rs:56-76; `localRoots` and `libraryRoots` are set from the start
(ide_db/src/lib.rs:48-49). -/
structure Db where
  fileText : AMap Nat Text
  fileSourceRoot : AMap Nat Nat
  sourceRoot : AMap Nat SourceRoot
  localRoots : List Nat
  libraryRoots : List Nat

/-- `RootDatabase::new`, ide_db/src/lib.rs:46-52. -/
def Db.new : Db := ⟨[], [], [], [], []⟩

/-- `Change`, change.rs:13-16. -/
structure Change where
  roots : Option (List SourceRoot)
  filesChanged : List (Nat × Option Text)

/-- `for file_id in root.iter() { db.set_file_source_root(file_id, root_id) }`,
change.rs:49-51. -/
def setFileRoots (m : AMap Nat Nat) (files : List Nat) (rootId : Nat) : AMap Nat Nat :=
  files.foldl (fun m f => m.insert f rootId) m

/-- The loop over the roots, change.rs:46-53, from index `idx`. -/
def applyRoots (db : Db) : List SourceRoot → Nat → Db
  | [], _ => db
  | root :: roots, idx =>
    applyRoots { db with
      fileSourceRoot := setFileRoots db.fileSourceRoot root.iter idx
      sourceRoot := db.sourceRoot.insert idx root } roots (idx + 1)

/-- One step of the loop over the files, change.rs:56-63: reading an input that was never set
panics. -/
def applyFile (db : Db) (file : Nat × Option Text) : Option Db :=
  match db.fileSourceRoot.get file.1 with
  | none => none
  | some rootId =>
    match db.sourceRoot.get rootId with
    | none => none
    | some _ => some { db with fileText := db.fileText.insert file.1 (file.2.getD []) }

/-- `Change::apply`, change.rs:44-64. -/
def Change.apply (c : Change) (db : Db) : Option Db :=
  let db := match c.roots with
    | some roots => applyRoots db roots 0
    | none => db
  c.filesChanged.foldlM applyFile db

/-- The loop that sorts the roots into two sets, apply_change.rs:17-24, from index `idx`. -/
def splitRoots : List SourceRoot → Nat → List Nat × List Nat → List Nat × List Nat
  | [], _, acc => acc
  | root :: roots, idx, (local_, library) =>
    if root.isLibrary then splitRoots roots (idx + 1) (local_, library ++ [idx])
    else splitRoots roots (idx + 1) (local_ ++ [idx], library)

/-- `RootDatabase::apply_change`, apply_change.rs:12-29.  The cancellation of running queries
is modelled in the server. -/
def Db.applyChange (db : Db) (c : Change) : Option Db :=
  let db := match c.roots with
    | some roots =>
      let s := splitRoots roots 0 ([], [])
      { db with localRoots := s.1, libraryRoots := s.2 }
    | none => db
  c.apply db

end Verif.Db
