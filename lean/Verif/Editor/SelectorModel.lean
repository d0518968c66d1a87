import Verif.Text.Spec

set_option autoImplicit false

/-!
Which documents the client of a folder sends to its server: `/repo/editors/code/src/components/client.ts`,
`isMoveDocument` of `util.ts`, and the editor's own matching of patterns, which is external.

The matcher is the one of VS Code (`vs/base/common/glob.ts`): a pattern is turned into a regular expression.  Modelled
are plain characters, `?`, `*`, `**` between slashes and `[...]`; a pattern with braces, with an unpaired bracket, or with a
slash between brackets is outside the model (`none`).  Paths are those of Unix: the fields `fsPath` and `path` of a URI
are the same text.
-/

namespace Verif.Editor.Selector

/-- The part of a `TextDocument` that is read. -/
structure Document where
  scheme : Text
  languageId : Text
  fsPath : Text

/-- An element of `documentSelector`. -/
structure Filter where
  scheme : Text
  language : Text
  pattern : Text

/-- The `documentSelector` of the client of a folder, client.ts:26 and 40-46. -/
def selector (projectRoot : Text) : Filter :=
  { scheme := "file".toList, language := "move".toList, pattern := projectRoot ++ "/**/*".toList }

/-- util.ts:62-71, `isMoveDocument`. -/
def isMoveDocument (d : Document) : Bool :=
  d.scheme == "file".toList && (d.languageId == "move".toList || "Dove.toml".toList.isSuffixOf d.fsPath)

/-! ### The matcher of the editor (external) -/

/-- What a pattern is made of. -/
inductive Re where
  /-- a character -/
  | lit (c : Char)
  /-- `/` between two segments: a separator, `[/\\]` -/
  | slash
  /-- `?`: a character other than a separator -/
  | one
  /-- `*`: a run of characters other than separators, `[^/\\]*?` -/
  | many
  /-- `[...]`: a character in one of the ranges, or in none of them -/
  | cls (neg : Bool) (ranges : List (Char × Char))
  /-- `**` as a segment with the slash behind it: `(?:[/\\]|[^/\\]+[/\\])*?` -/
  | stars
  deriving DecidableEq

/-- The separators of paths, for the matcher. -/
def isSep (c : Char) : Bool := c == '/' || c == '\\'

/-- A character and a class. -/
def inClass (neg : Bool) (ranges : List (Char × Char)) (c : Char) : Bool :=
  neg != ranges.any fun r => decide (r.1 ≤ c) && decide (c ≤ r.2)

/-- Does the regular expression match the whole text?  `stars` matches the empty text and the texts that end in a
separator. -/
def matchRe : List Re → Text → Bool
  | [], t => t.isEmpty
  | .lit c :: rs, t => match t with
    | [] => false
    | d :: t => c == d && matchRe rs t
  | .slash :: rs, t => match t with
    | [] => false
    | d :: t => isSep d && matchRe rs t
  | .one :: rs, t => match t with
    | [] => false
    | d :: t => !isSep d && matchRe rs t
  | .cls neg ranges :: rs, t => match t with
    | [] => false
    | d :: t => inClass neg ranges d && matchRe rs t
  | .many :: rs, t =>
    (List.range (t.length + 1)).any fun n => (t.take n).all (fun c => !isSep c) && matchRe rs (t.drop n)
  | .stars :: rs, t =>
    (List.range (t.length + 1)).any fun n => ((t.take n).getLast?.all isSep) && matchRe rs (t.drop n)

/-- The ranges between brackets. -/
def ranges : Text → List (Char × Char)
  | a :: '-' :: b :: rest => (a, b) :: ranges rest
  | a :: rest => (a, a) :: ranges rest
  | [] => []

/-- A class from the text between the brackets. -/
def mkClass : Text → Re
  | '^' :: rest => .cls true (ranges rest)
  | '!' :: rest => .cls true (ranges rest)
  | rest => .cls false (ranges rest)

/-- A segment, the part of a pattern between two slashes; in `some b` the brackets with the text `b` are open. -/
def segment : Option Text → Text → Option (List Re)
  | none, [] => some []
  | some _, [] => none
  | some b, c :: t =>
    if c = ']' ∧ b ≠ [] then (segment none t).map (mkClass b :: ·)
    else if c = '/' then none
    else segment (some (b ++ [c])) t
  | none, c :: t =>
    if c = '{' ∨ c = '}' ∨ c = ']' then none
    else if c = '[' then segment (some []) t
    else if c = '*' then (segment none t).map (.many :: ·)
    else if c = '?' then (segment none t).map (.one :: ·)
    else (segment none t).map (.lit c :: ·)

/-- The text between slashes. -/
def splitSegments : Text → Text → List Text
  | acc, [] => [acc]
  | acc, c :: t => if c = '/' then acc :: splitSegments [] t else splitSegments (acc ++ [c]) t

/-- The regular expression of a list of segments.  `**` as the last segment is outside the model. -/
def compile : List Text → Option (List Re)
  | [] => some []
  | [s] => if s = ['*', '*'] then none else segment none s
  | s :: s' :: rest =>
    if s = ['*', '*'] then (compile (s' :: rest)).map (.stars :: ·)
    else
      match segment none s, compile (s' :: rest) with
      | some a, some b => some (a ++ .slash :: b)
      | _, _ => none

/-- Does the pattern match the path? -/
def globMatch (pattern path : Text) : Option Bool :=
  (compile (splitSegments [] pattern)).map fun re => matchRe re path

/-- Does the filter select the document?  (`score` of VS Code's `languageSelector.ts`: scheme, language, and the pattern
is the path or matches it.) -/
def Filter.selects (f : Filter) (d : Document) : Option Bool :=
  (globMatch f.pattern d.fsPath).map fun m =>
    f.scheme == d.scheme && f.language == d.languageId && (f.pattern == d.fsPath || m)

/-- The folders whose server is told of a document, if one client runs for every one of the folders. -/
def servers (folders : List Text) (d : Document) : Option (List Text) :=
  match folders with
  | [] => some []
  | f :: fs =>
    match (selector f).selects d, servers fs d with
    | some true, some s => some (f :: s)
    | some false, some s => some s
    | _, _ => none

end Verif.Editor.Selector
