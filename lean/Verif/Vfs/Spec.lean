import Verif.Vfs.Model

/-!
What a user of the file store expects, in terms of the history of calls only.
-/

namespace Verif.Vfs

variable {P C : Type} [DecidableEq P] [DecidableEq C]

/-- What `p` holds after a history that starts with contents `init`: the last write to it. -/
def lastWriteFrom (init : Option C) (p : P) : List (Op P C) → Option C
  | [] => init
  | .set q c :: rest => lastWriteFrom (if q = p then c else init) p rest
  | .take :: rest => lastWriteFrom init p rest

/-- What `p` holds after a history, the store being empty at first. -/
def lastWrite (ops : List (Op P C)) (p : P) : Option C := lastWriteFrom none p ops

/-- The paths mentioned in a history. -/
def pathsOf : List (Op P C) → List P
  | [] => []
  | .set q _ :: rest => q :: pathsOf rest
  | .take :: rest => pathsOf rest

/-- The kind of change between an old and a new state of a file, if any. -/
def kindOf : Option C → Option C → Option ChangeKind
  | none, none => none
  | none, some _ => some .create
  | some _, none => some .delete
  | some a, some b => if a = b then none else some .modify

/-- A consumer's copy of the store after handling one change record: it drops the file for a
deletion, and otherwise fetches the present contents `fetch id` if there are any. -/
def consume (fetch : Nat → Option C) (copy : Nat → Option C) (r : ChangedFile) : Nat → Option C :=
  fun id => if id = r.fileId then (if r.exists then fetch id else none) else copy id

/-- The change records a sequence of writes should produce, by path, starting from the
contents `m`: one record for every write that changes something. -/
def specLog (m : P → Option C) : List (P × Option C) → List (P × ChangeKind)
  | [] => []
  | (p, c) :: rest =>
    let m' := fun q => if p = q then c else m q
    match kindOf (m p) c with
    | none => specLog m' rest
    | some k => (p, k) :: specLog m' rest

/-- A sequence of writes as a history. -/
def writes (sets : List (P × Option C)) : List (Op P C) := sets.map (fun s => .set s.1 s.2)

end Verif.Vfs
