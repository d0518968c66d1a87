import Verif.Text.Spec

set_option autoImplicit false

/-!
Model of `download` and `downloadFile`, `/repo/editors/code/src/components/net.ts`, and of the binary
lookup in `/repo/editors/code/src/components/bootstrap.ts`.  Several downloads, of one or of several
processes, run interleaved; a killed process is a download that makes no further step.  Not modelled:
power failure, which can lose data that was written but not flushed.
-/

namespace Verif.Editor.Download

abbrev Bytes := List UInt8

/-- The files: contents by path. -/
abbrev Files := Text → Option Bytes

def Files.write (fs : Files) (p : Text) (c : Option Bytes) : Files := fun q => if q = p then c else fs q

/-- The last dot of a base name that is not its first character: `path.parse` splits the name there. -/
def splitExt : Text → Option (Text × Text)
  | [] => none
  | c :: cs =>
    match splitExt cs with
    | some (n, e) => some (c :: n, e)
    | none => if c = '.' then some ([], c :: cs) else none

/-- `path.parse(base)`: `name` and `ext` of a base name. -/
def parseBase (base : Text) : Text × Text :=
  match base with
  | [] => ([], [])
  | c :: cs =>
    match splitExt cs with
    | some (n, e) => (c :: n, e)
    | none => (c :: cs, [])

/-- The temporary file, net.ts:78-80; `dir` ends with a separator. -/
def tempFile (dir base hex : Text) : Text := dir ++ ((parseBase base).1 ++ hex)

/-- The destination. -/
def destFile (dir base : Text) : Text := dir ++ base

/-- Where a download is. -/
inductive Phase where
  /-- `await fetch(url)`, net.ts:120 -/
  | fetching
  /-- `await pipeline(res.body, destFileStream)`, net.ts:144 -/
  | streaming
  /-- `await fs.promises.rename(tempFile, opts.dest)`, net.ts:110 -/
  | renaming
  | done
  | failed
  deriving DecidableEq, Repr

structure Job where
  url : Text
  temp : Text
  dest : Text
  phase : Phase
  /-- the bytes written to the temporary file -/
  received : Bytes

structure World where
  files : Files
  jobs : List Job

inductive Action where
  /-- a call of `download` -/
  | start (url dir base hex : Text)
  /-- the response arrives, with status ok or not, net.ts:120-127; the file is created or truncated,
  net.ts:140 -/
  | respond (i : Nat) (ok : Bool)
  /-- a chunk of the body is written -/
  | chunk (i : Nat) (bytes : Bytes)
  /-- the body ends, the pipeline resolves -/
  | bodyEnds (i : Nat)
  /-- the connection or the disk fails, the pipeline rejects -/
  | bodyFails (i : Nat)
  /-- the rename happens -/
  | rename (i : Nat)
  /-- the rename is refused -/
  | renameFails (i : Nat)

def World.update (w : World) (i : Nat) (f : Job → Files × Job) : World :=
  match w.jobs[i]? with
  | none => w
  | some j => ⟨(f j).1, w.jobs.set i (f j).2⟩

def World.step (w : World) : Action → World
  | .start url dir base hex =>
    { w with jobs := w.jobs ++ [⟨url, tempFile dir base hex, destFile dir base, .fetching, []⟩] }
  | .respond i ok => w.update i fun j =>
      if j.phase = .fetching then
        if ok then (w.files.write j.temp (some []), { j with phase := .streaming, received := [] })
        else (w.files, { j with phase := .failed })
      else (w.files, j)
  | .chunk i bytes => w.update i fun j =>
      if j.phase = .streaming then
        (w.files.write j.temp (some (((w.files j.temp).getD []) ++ bytes)), { j with received := j.received ++ bytes })
      else (w.files, j)
  | .bodyEnds i => w.update i fun j =>
      if j.phase = .streaming then (w.files, { j with phase := .renaming }) else (w.files, j)
  | .bodyFails i => w.update i fun j =>
      if j.phase = .streaming then (w.files, { j with phase := .failed }) else (w.files, j)
  | .rename i => w.update i fun j =>
      if j.phase = .renaming then
        ((w.files.write j.dest (w.files j.temp)).write j.temp none, { j with phase := .done })
      else (w.files, j)
  | .renameFails i => w.update i fun j =>
      if j.phase = .renaming then (w.files, { j with phase := .failed }) else (w.files, j)

def World.run (w : World) (acts : List Action) : World := acts.foldl World.step w

/-- `getBinaryPathEnsureExists`, bootstrap.ts:124-127, without a configured path: an existing file is
used as it is. -/
def World.usesExisting (w : World) (dest : Text) : Option Bytes := w.files dest

end Verif.Editor.Download
