import Verif.TestUtils.AnnotationsModel
import Verif.Stdx.Indent

set_option autoImplicit false

/-!
C72: fixtures.  Model of `/repo/crates/test_utils/src/fixture.rs` and of
`/repo/crates/base_db/src/fixture.rs`.  `none` is a panic.
-/

namespace Verif.TestUtils

open Lexer

/-- `Fixture`, test_utils/src/fixture.rs:67-79, without the five fields that `ChangeFixture::parse` does not
look at (`extern_prelude`, the two of `cfg`, `edition` and `env`). -/
structure Fixture where
  path : Text
  text : Text
  krate : Option Text := none
  deps : List Text := []
  newRoot : Option Text := none
  deriving DecidableEq, Repr

/-- `str::contains` with a text. -/
def contains (pat text : Text) : Bool := (find pat text).isSome

/-- One round of the loop of `Fixture::parse`, test_utils/src/fixture.rs:107-135.  The branch that made a file of a metadata
line is commented out in the code (lines 119-122).  `upper` is `char::is_uppercase`. -/
def fixtureLine (upper : Char → Bool) (res : List Fixture) (line : Text) : Option (List Fixture) :=
  if contains "//-".toList line && !startsWith line "//-" then none
  else if startsWith line "// " && line.contains ':' && !contains "::".toList line && line.all (fun c => !upper c) then none
  else some (res.modify (res.length - 1) fun entry => { entry with text := entry.text ++ line })

/-- `Fixture::parse`, test_utils/src/fixture.rs:100-138. -/
def Fixture.parse (upper : Char → Bool) (raFixture : Text) : Option (List Fixture) :=
  match Stdx.trimIndent raFixture with
  | none => none
  | some fixture =>
    let default := if contains "//-".toList fixture then [] else ["//- /main.move".toList]
    (default ++ Stdx.splitInclusive fixture).foldlM (fixtureLine upper) []

/-- `replace(ESCAPED_CURSOR_MARKER, CURSOR_MARKER)`, base_db/src/fixture.rs:87: each backslash in front of a
marker goes.  Two escaped markers cannot overlap. -/
def unescapeMarkers : Text → Text
  | [] => []
  | c :: cs => if c == '\\' && cursorMarker.isPrefixOf cs then unescapeMarkers cs else c :: unescapeMarkers cs

/-- The text of a file, base_db/src/fixture.rs:85-97, with the position marked in it. -/
def entryText (text : Text) : Option (Text × Option RangeOrOffset) :=
  if contains cursorMarker text then
    if contains ('\\' :: cursorMarker) text then some (unescapeMarkers text, none)
    else (extractRangeOrOffset text).map fun (p, text) => (text, some p)
  else some (text, none)

/-- The kind of the source root an entry opens, base_db/src/fixture.rs:158-162; whether it is a library. -/
def rootKind (kind : Text) : Option Bool :=
  if kind = "local".toList then some false else if kind = "library".toList then some true else none

/-- The variables of the loop of `ChangeFixture::parse`, base_db/src/fixture.rs:73-82.  A source root is whether it is a
library, and the calls of `FileSet::insert` that made its file set. -/
structure FixtureState where
  change : List (Nat × Text) := []
  files : List Nat := []
  fileSet : List (Nat × Text) := []
  library : Bool := false
  fileId : Nat := 0
  roots : List (Bool × List (Nat × Text)) := []
  position : Option (Nat × RangeOrOffset) := none
  deriving DecidableEq, Repr

/-- One round of the loop of `ChangeFixture::parse`, base_db/src/fixture.rs:84-118. -/
def fixtureEntry (s : FixtureState) (entry : Fixture) : Option FixtureState :=
  match entryText entry.text with
  | none => none
  | some (text, marked) =>
    if marked.isSome && s.position.isSome then none
    else
      let position := match marked with
        | some p => some (s.fileId, p)
        | none => s.position
      if !startsWith entry.path "/" then none
      else if !entry.deps.isEmpty && entry.krate.isNone then none
      else
        let insert (library : Bool) (fileSet : List (Nat × Text)) (roots : List (Bool × List (Nat × Text))) :=
          some { change := s.change ++ [(s.fileId, text)], files := s.files ++ [s.fileId],
                 fileSet := fileSet ++ [(s.fileId, entry.path)], library := library,
                 fileId := s.fileId + 1, roots := roots, position := position : FixtureState }
        match entry.newRoot with
        | none => insert s.library s.fileSet s.roots
        | some kind =>
          match rootKind kind with
          | none => none
          | some library => insert library [] (s.roots ++ [(s.library, s.fileSet)])

/-- `ChangeFixture`, base_db/src/fixture.rs:64-68; the change has texts and roots. -/
structure ChangeFixture where
  position : Option (Nat × RangeOrOffset)
  files : List Nat
  texts : List (Nat × Text)
  roots : List (Bool × List (Nat × Text))
  deriving DecidableEq, Repr

/-- `ChangeFixture::parse` behind the call of `Fixture::parse`, base_db/src/fixture.rs:73-127. -/
def changeOf (entries : List Fixture) : Option ChangeFixture :=
  (entries.foldlM fixtureEntry {}).map fun s =>
    { position := s.position, files := s.files, texts := s.change, roots := s.roots ++ [(s.library, s.fileSet)] }

/-- `ChangeFixture::parse`, base_db/src/fixture.rs:71-128. -/
def changeFixture (upper : Char → Bool) (raFixture : Text) : Option ChangeFixture :=
  match Fixture.parse upper raFixture with
  | none => none
  | some fixture => changeOf fixture

/-- `with_single_file`, base_db/src/fixture.rs:15-21: the file and the change applied to an empty database. -/
def withSingleFile (upper : Char → Bool) (text : Text) : Option (ChangeFixture × Nat) :=
  match changeFixture upper text with
  | none => none
  | some fixture =>
    match fixture.files with
    | [file] => some (fixture, file)
    | _ => none

/-- `with_range_or_offset`, base_db/src/fixture.rs:51-59. -/
def withRangeOrOffset (upper : Char → Bool) (raFixture : Text) : Option (ChangeFixture × Nat × RangeOrOffset) :=
  match changeFixture upper raFixture with
  | none => none
  | some fixture => fixture.position.map fun p => (fixture, p)

/-- `with_many_files`, base_db/src/fixture.rs:23-29; `with_files` (31-37) is the same without the list. -/
def withManyFiles (upper : Char → Bool) (raFixture : Text) : Option (ChangeFixture × List Nat) :=
  match changeFixture upper raFixture with
  | none => none
  | some fixture => if fixture.position.isNone then some (fixture, fixture.files) else none

namespace Spec

/-- A line the parser of fixtures refuses: metadata that is not at the start of the line, or a comment that
looks like metadata. -/
def Refused (upper : Char → Bool) (line : Text) : Prop :=
  (∃ a b, line = a ++ "//-".toList ++ b ∧ ¬ "//-".toList <+: line) ∨
  ("// ".toList <+: line ∧ ':' ∈ line ∧ (∀ a b, line ≠ a ++ "::".toList ++ b) ∧ ∀ c ∈ line, upper c = false)

end Spec

open Spec

theorem contains_iff (pat text : Text) : contains pat text = true ↔ ∃ a b, text = a ++ pat ++ b := by
  unfold contains
  induction text with
  | nil =>
    simp only [find]
    constructor
    · intro h
      split at h
      · next hp =>
        obtain ⟨r, hr⟩ := List.isPrefixOf_iff_prefix.1 hp
        exact ⟨[], r, by simpa using hr.symm⟩
      · cases h
    · rintro ⟨a, b, e⟩
      have : pat = [] := by
        have := congrArg List.length e
        simp at this
        exact List.length_eq_zero_iff.1 (by omega)
      simp [this]
  | cons c cs ih =>
    simp only [find]
    constructor
    · intro h
      split at h
      · next hp =>
        obtain ⟨r, hr⟩ := List.isPrefixOf_iff_prefix.1 hp
        exact ⟨[], r, by simpa using hr.symm⟩
      · rw [Option.isSome_map] at h
        obtain ⟨a, b, e⟩ := ih.1 h
        exact ⟨c :: a, b, by rw [e]; rfl⟩
    · rintro ⟨a, b, e⟩
      split
      · rfl
      · next hp =>
        rw [Option.isSome_map]
        cases a with
        | nil => exact absurd (List.isPrefixOf_iff_prefix.2 ⟨b, by simpa using e.symm⟩) hp
        | cons x a =>
          simp only [List.cons_append, List.cons.injEq] at e
          exact ih.2 ⟨a, b, e.2⟩

theorem fixtureLine_eq (upper : Char → Bool) (line : Text) :
    (Refused upper line → fixtureLine upper [] line = none) ∧
    (¬ Refused upper line → fixtureLine upper [] line = some []) := by
  have h1 : (contains "//-".toList line && !startsWith line "//-") = true ↔
      ∃ a b, line = a ++ "//-".toList ++ b ∧ ¬ "//-".toList <+: line := by
    rw [Bool.and_eq_true, contains_iff, startsWith]
    constructor
    · rintro ⟨⟨a, b, e⟩, h⟩
      refine ⟨a, b, e, fun hp => ?_⟩
      rw [List.isPrefixOf_iff_prefix.2 hp] at h
      cases h
    · rintro ⟨a, b, e, h⟩
      refine ⟨⟨a, b, e⟩, ?_⟩
      cases hp : "//-".toList.isPrefixOf line with
      | true => exact absurd (List.isPrefixOf_iff_prefix.1 hp) h
      | false => rfl
  have h2 : (startsWith line "// " && line.contains ':' && !contains "::".toList line && line.all (fun c => !upper c)) = true ↔
      "// ".toList <+: line ∧ ':' ∈ line ∧ (∀ a b, line ≠ a ++ "::".toList ++ b) ∧ ∀ c ∈ line, upper c = false := by
    rw [Bool.and_eq_true, Bool.and_eq_true, Bool.and_eq_true, startsWith, List.isPrefixOf_iff_prefix]
    have h3 : (!contains "::".toList line) = true ↔ ∀ a b, line ≠ a ++ "::".toList ++ b := by
      rw [Bool.not_eq_true', ← Bool.not_eq_true, contains_iff]
      exact ⟨fun h a b e => h ⟨a, b, e⟩, fun h ⟨a, b, e⟩ => h a b e⟩
    rw [h3]
    simp [and_assoc]
  constructor
  · rintro (h | h)
    · rw [fixtureLine, if_pos (h1.2 h)]
    · unfold fixtureLine
      split
      · rfl
      · rw [if_pos (h2.2 h)]
  · intro h
    rw [fixtureLine, if_neg (fun hc => h (.inl (h1.1 hc))), if_neg (fun hc => h (.inr (h2.1 hc)))]
    rfl

theorem fixture_lines (upper : Char → Bool) (ls : List Text) :
    ((∃ l ∈ ls, Refused upper l) → ls.foldlM (fixtureLine upper) [] = none) ∧
    ((∀ l ∈ ls, ¬ Refused upper l) → ls.foldlM (fixtureLine upper) [] = some []) := by
  induction ls with
  | nil => simp
  | cons l ls ih =>
    rw [List.foldlM_cons]
    obtain ⟨h1, h2⟩ := fixtureLine_eq upper l
    constructor
    · rintro ⟨x, hx, hr⟩
      by_cases hl : Refused upper l
      · rw [h1 hl]; rfl
      · rw [h2 hl]
        rcases List.mem_cons.1 hx with rfl | hx
        · exact absurd hr hl
        · exact ih.1 ⟨x, hx, hr⟩
    · intro h
      rw [h2 (h l (by simp))]
      exact ih.2 fun x hx => h x (by simp [hx])

/-- C72 fails: no fixture has a file, whatever its text. -/
theorem no_fixture_has_a_file (upper : Char → Bool) (raFixture : Text) (files : List Fixture)
    (h : Fixture.parse upper raFixture = some files) : files = [] := by
  unfold Fixture.parse at h
  split at h
  · cases h
  · next fixture _ =>
    simp only at h
    generalize hls : (if contains "//-".toList fixture then [] else ["//- /main.move".toList]) ++
      Stdx.splitInclusive fixture = ls at h
    by_cases hr : ∃ l ∈ ls, Refused upper l
    · rw [(fixture_lines upper ls).1 hr] at h; cases h
    · rw [(fixture_lines upper ls).2 fun l hl hx => hr ⟨l, hl, hx⟩] at h
      exact (Option.some.inj h).symm

/-- C72 fails: a database is never made of a single file or with a position; every such call panics. -/
theorem every_single_file_fixture_panics (upper : Char → Bool) (text : Text) :
    withSingleFile upper text = none ∧ withRangeOrOffset upper text = none ∧
    (∀ change files, withManyFiles upper text = some (change, files) → files = [] ∧ change.texts = []) := by
  unfold withSingleFile withRangeOrOffset withManyFiles changeFixture
  cases h : Fixture.parse upper text with
  | none => simp
  | some files =>
    rw [no_fixture_has_a_file upper text files h]
    refine ⟨rfl, rfl, ?_⟩
    intro change files h
    cases h
    exact ⟨rfl, rfl⟩

/-- C72, the part that holds: a fixture is refused exactly if one of its lines is malformed metadata. -/
theorem fixture_metadata_checked_partial (upper : Char → Bool) (raFixture fixture : Text)
    (h : Stdx.trimIndent raFixture = some fixture) :
    Fixture.parse upper raFixture = none ↔ ∃ l ∈ Stdx.splitInclusive fixture, Refused upper l := by
  have hd : ¬ Refused upper "//- /main.move".toList := by
    rintro (⟨_, _, _, h⟩ | ⟨h, _⟩)
    · exact h (by decide)
    · revert h; decide
  unfold Fixture.parse
  rw [h]
  simp only
  generalize hls : (if contains "//-".toList fixture then [] else ["//- /main.move".toList]) ++
    Stdx.splitInclusive fixture = ls
  have hmem : (∃ l ∈ ls, Refused upper l) ↔ ∃ l ∈ Stdx.splitInclusive fixture, Refused upper l := by
    rw [← hls]
    constructor
    · rintro ⟨l, hl, hr⟩
      rcases List.mem_append.1 hl with hl | hl
      · split at hl
        · simp at hl
        · rw [List.mem_singleton] at hl; exact absurd (hl ▸ hr) hd
      · exact ⟨l, hl, hr⟩
    · rintro ⟨l, hl, hr⟩
      exact ⟨l, List.mem_append_right _ hl, hr⟩
  rw [← hmem]
  constructor
  · intro hp
    apply Classical.byContradiction
    intro hn
    rw [(fixture_lines upper ls).2 fun l hl hx => hn ⟨l, hl, hx⟩] at hp
    cases hp
  · exact (fixture_lines upper ls).1

/-- A fixture without metadata, one with a file, and one shaped as in the test at
test_utils/src/fixture.rs:141-154, whose second metadata line is indented further. -/
example : Fixture.parse (fun c => Stdx.isUpper c) "module M {}\n".toList = some [] ∧
    Fixture.parse (fun c => Stdx.isUpper c) "\n    //- /a.move\n    module M {}\n".toList = some [] ∧
    Fixture.parse (fun c => Stdx.isUpper c) "\n//- /a.move\n  x\n  //- /b.move\n".toList = none ∧
    withSingleFile (fun c => Stdx.isUpper c) "module M {}\n".toList = none := by decide +kernel

end Verif.TestUtils
