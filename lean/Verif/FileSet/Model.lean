import Verif.Vfs.Model
import Verif.Util.Map

/-!
Model of the partition of the file store: `crates/vfs/src/file_set.rs` and the encoding of
paths, `crates/vfs/src/vfs_path.rs:105-162` (unix case).  `none` is a panic.
-/

namespace Verif.FileSet

open Verif.Vfs

abbrev Bytes := List UInt8

/-- `VfsPathRepr`, vfs_path.rs:270-275, by the bytes of the path. -/
inductive VfsPath where
  | pathBuf (bytes : Bytes)
  | virtualPath (bytes : Bytes)
deriving DecidableEq, Repr

/-- `VfsPath::encode`, vfs_path.rs:113-162 (unix). -/
def VfsPath.encode : VfsPath → Bytes
  | .pathBuf bs => 0 :: bs
  | .virtualPath bs => 1 :: bs

/-- The lexicographic order of byte strings, `Ord for Vec<u8>`. -/
def bytesLe : Bytes → Bytes → Bool
  | [], _ => true
  | _ :: _, [] => false
  | a :: as, b :: bs => a < b || (a == b && bytesLe as bs)

/-- The order of the entries `(Vec<u8>, u64)` used by `entries.sort()`, file_set.rs:175. -/
def entryLe (a b : Bytes × Nat) : Bool :=
  if a.1 = b.1 then a.2 ≤ b.2 else bytesLe a.1 b.1

/-- `entries.dedup_by(|(a, _), (b, _)| a == b)`, file_set.rs:176: of neighbours with equal
keys the first stays. -/
def dedupFrom (prev : Bytes × Nat) : List (Bytes × Nat) → List (Bytes × Nat)
  | [] => []
  | e :: es => if e.1 = prev.1 then dedupFrom prev es else e :: dedupFrom e es

/-- `Vec::dedup_by` on the whole list. -/
def dedup : List (Bytes × Nat) → List (Bytes × Nat)
  | [] => []
  | e :: es => e :: dedupFrom e es

/-- `FileSetConfig`, file_set.rs:85-93: the `fst::Map` is its sorted list of entries. -/
structure FileSetConfig where
  nFileSets : Nat
  map : List (Bytes × Nat)

/-- The loops that collect the entries, file_set.rs:167-174. -/
def collect (roots : List (List VfsPath)) (i : Nat) : List (Bytes × Nat) :=
  match roots with
  | [] => []
  | paths :: rest => paths.map (fun p => (p.encode, i)) ++ collect rest (i + 1)

/-- `fst::Map::from_iter`: an error unless the keys are strictly increasing. -/
def fstFromIter : List (Bytes × Nat) → Option (List (Bytes × Nat))
  | [] => some []
  | [e] => some [e]
  | a :: b :: rest =>
    if bytesLe a.1 b.1 && a.1 != b.1 then (fstFromIter (b :: rest)).map (a :: ·) else none

/-- `FileSetConfigBuilder::build`, file_set.rs:164-180. -/
def build (roots : List (List VfsPath)) : Option FileSetConfig :=
  match fstFromIter (dedup ((collect roots 0).mergeSort entryLe)) with
  | none => none
  | some map => some ⟨roots.length + 1, map⟩

/-- `PrefixOf::accept`, file_set.rs:208-214; the dead state `!0` is `none`. -/
def accept (prefixOf : Bytes) (state : Option Nat) (byte : UInt8) : Option Nat :=
  match state with
  | none => none
  | some s => if prefixOf[s]? = some byte then some (s + 1) else none

/-- The keys of the map the automaton accepts: start state 0, `is_match` when not dead,
file_set.rs:197-207. -/
def accepts (prefixOf key : Bytes) : Bool := (key.foldl (accept prefixOf) (some 0)).isSome

/-- `FileSetConfig::classify`, file_set.rs:128-138.  `fst` streams the matching entries in key
order (contract of `Map::search`). -/
def FileSetConfig.classify (c : FileSetConfig) (path : VfsPath) : Nat :=
  (c.map.filter (fun e => accepts path.encode e.1)).foldl (fun _ e => e.2) (c.nFileSets - 1)

/-- `FileSet`, file_set.rs:13-17. -/
structure FileSet where
  files : AMap VfsPath Nat
  paths : AMap Nat VfsPath

/-- `FileSet::default()`. -/
def FileSet.empty : FileSet := ⟨[], []⟩

/-- `FileSet::insert`, file_set.rs:50-53. -/
def FileSet.insert (s : FileSet) (id : Nat) (path : VfsPath) : FileSet :=
  ⟨s.files.insert path id, s.paths.insert id path⟩

/-- `FileSet::file_for_path`, file_set.rs:37-39. -/
def FileSet.fileForPath (s : FileSet) (path : VfsPath) : Option Nat := s.files.get path

/-- `FileSet::path_for_file`, file_set.rs:42-44. -/
def FileSet.pathForFile (s : FileSet) (id : Nat) : Option VfsPath := s.paths.get id

/-- `FileSet::iter`, file_set.rs:56-58. -/
def FileSet.iter (s : FileSet) : List Nat := s.paths.keys

/-- Body of the loop of `partition`: `res[root].insert(..)`, indexing may panic,
file_set.rs:114-115. -/
def FileSetConfig.place (c : FileSetConfig) (res : List FileSet) (f : Nat × VfsPath) : Option (List FileSet) :=
  let root := c.classify f.2
  match res[root]? with
  | none => none
  | some s => some (res.set root (s.insert f.1 f.2))

/-- `FileSetConfig::partition`, file_set.rs:110-118. -/
def FileSetConfig.partition {C : Type} (c : FileSetConfig) (v : Vfs VfsPath C) : Option (List FileSet) :=
  match v.iter with
  | none => none
  | some files => files.foldlM c.place (List.replicate c.nFileSets FileSet.empty)

end Verif.FileSet
