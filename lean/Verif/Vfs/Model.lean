/-!
Model of the file store: `crates/vfs/src/lib.rs` (`Vfs`) and
`crates/vfs/src/path_interner.rs` (`PathInterner`).

Paths `P` and contents `C` are arbitrary types with decidable equality: the code only compares
them.  `none` is a panic.  A `FileId` is its `u32` index, as a `Nat`.
-/

namespace Verif.Vfs

variable {P C : Type} [DecidableEq P] [DecidableEq C]

/-- `IndexSet::get_index_of`, path_interner.rs:26-28. -/
def indexOf (p : P) : List P → Option Nat
  | [] => none
  | q :: qs => if q = p then some 0 else (indexOf p qs).map (· + 1)

/-- `u32::MAX as usize`, path_interner.rs:36. -/
def maxId : Nat := 4294967295

/-- `ChangeKind`, lib.rs:93-102. -/
inductive ChangeKind where
  | create
  | modify
  | delete
deriving DecidableEq, Repr

/-- `ChangedFile`, lib.rs:72-78. -/
structure ChangedFile where
  fileId : Nat
  changeKind : ChangeKind
deriving DecidableEq, Repr

/-- `ChangedFile::exists`, lib.rs:82-84. -/
def ChangedFile.exists (f : ChangedFile) : Bool := f.changeKind != .delete

/-- `ChangedFile::is_created_or_deleted`, lib.rs:88-90. -/
def ChangedFile.isCreatedOrDeleted (f : ChangedFile) : Bool :=
  f.changeKind == .create || f.changeKind == .delete

/-- `Vfs`, lib.rs:66-70; the interner is the insertion-ordered list of paths. -/
structure Vfs (P C : Type) where
  interner : List P
  data : List (Option C)
  changes : List ChangedFile
deriving Repr

/-- `Vfs::default()`. -/
def Vfs.empty : Vfs P C := ⟨[], [], []⟩

/-- `PathInterner::intern`, path_interner.rs:34-38; the assertion is the `none` case. -/
def intern (paths : List P) (p : P) : Option (List P × Nat) :=
  match indexOf p paths with
  | some i => if i < maxId then some (paths, i) else none
  | none => if paths.length < maxId then some (paths ++ [p], paths.length) else none

/-- `Vec::resize_with(len, || None)` where `len` is not smaller than the current length. -/
def resize (data : List (Option C)) (len : Nat) : List (Option C) :=
  data ++ List.replicate (len - data.length) none

/-- `Vfs::alloc_file_id`, lib.rs:187-193. -/
def Vfs.allocFileId (v : Vfs P C) (p : P) : Option (Vfs P C × Nat) :=
  match intern v.interner p with
  | none => none
  | some (paths, id) =>
    some ({ v with interner := paths, data := resize v.data (max v.data.length (id + 1)) }, id)

/-- `Vfs::get`, lib.rs:200-202: indexing panics for an unknown id. -/
def Vfs.get (v : Vfs P C) (id : Nat) : Option (Option C) := v.data[id]?

/-- `Vfs::file_id`, lib.rs:113-115.  The outer `none` is a panic. -/
def Vfs.fileId (v : Vfs P C) (p : P) : Option (Option Nat) :=
  match indexOf p v.interner with
  | none => some none
  | some id =>
    match v.get id with
    | none => none
    | some c => some (if c.isSome then some id else none)

/-- `Vfs::file_path`, lib.rs:122-124. -/
def Vfs.filePath (v : Vfs P C) (id : Nat) : Option P := v.interner[id]?

/-- `Vfs::file_contents`, lib.rs:132-134. -/
def Vfs.fileContents (v : Vfs P C) (id : Nat) : Option C :=
  match v.get id with
  | some (some c) => some c
  | _ => none

/-- `Vfs::iter`, lib.rs:139-147. -/
def Vfs.iter (v : Vfs P C) : Option (List (Nat × P)) :=
  ((List.range v.data.length).filter (fun id => (v.data[id]?.join).isSome)).mapM
    (fun id => (v.filePath id).map (fun p => (id, p)))

/-- `Vfs::set_file_contents`, lib.rs:155-168. -/
def Vfs.setFileContents (v : Vfs P C) (p : P) (contents : Option C) : Option (Vfs P C × Bool) :=
  match v.allocFileId p with
  | none => none
  | some (v, id) =>
    match v.get id with
    | none => none
    | some old =>
      let update (kind : ChangeKind) : Vfs P C × Bool :=
        ({ v with data := v.data.set id contents, changes := v.changes ++ [⟨id, kind⟩] }, true)
      match old, contents with
      | none, none => some (v, false)
      | none, some _ => some (update .create)
      | some _, none => some (update .delete)
      | some o, some n => if o = n then some (v, false) else some (update .modify)

/-- `Vfs::has_changes`, lib.rs:171-173. -/
def Vfs.hasChanges (v : Vfs P C) : Bool := !v.changes.isEmpty

/-- `Vfs::take_changes`, lib.rs:176-178. -/
def Vfs.takeChanges (v : Vfs P C) : Vfs P C × List ChangedFile :=
  ({ v with changes := [] }, v.changes)

/-- One mutating call of the API. -/
inductive Op (P C : Type) where
  | set (p : P) (contents : Option C)
  | take

/-- Effect of one call. -/
def step (v : Vfs P C) : Op P C → Option (Vfs P C)
  | .set p c => (v.setFileContents p c).map (·.1)
  | .take => some v.takeChanges.1

/-- The store after a history of calls, `none` if one of them panicked. -/
def run (ops : List (Op P C)) : Option (Vfs P C) := ops.foldlM step Vfs.empty

end Verif.Vfs
