import Verif.TestUtils.Fixture
import Verif.TestUtils.Cursor

set_option autoImplicit false

/-!
C72: what a database is made of, for all entries of a fixture, however they were read.
-/

namespace Verif.TestUtils

open Lexer

namespace Spec

/-- An escaped marker `\$0` is somewhere in the text. -/
def HasEscaped (t : Text) : Prop := ∃ p q, t = p ++ '\\' :: '$' :: '0' :: q

/-- `u` is `t` with each `\$0` replaced by `$0`. -/
inductive Unescaped : Text → Text → Prop
  | done {t} : ¬ HasEscaped t → Unescaped t t
  | next {p q u} : ¬ HasEscaped p → Unescaped q u →
      Unescaped (p ++ '\\' :: '$' :: '0' :: q) (p ++ '$' :: '0' :: u)

/-- The text of a file is `u`, with the position `m` marked in it, if the fixture has `t`. -/
inductive Becomes (t : Text) : Text → Option RangeOrOffset → Prop
  | plain : Free t → Becomes t t none
  | escaped {u} : HasEscaped t → Unescaped t u → Becomes t u none
  | offset {p q} : ¬ HasEscaped t → FirstMarker t p q → Free (p ++ q) →
      Becomes t (p ++ q) (some (.offset (byteLen p)))
  | range {p q p' q'} : ¬ HasEscaped t → FirstMarker t p q → FirstMarker (p ++ q) p' q' → byteLen p ≤ byteLen p' →
      Becomes t (p' ++ q') (some (.range (byteLen p, byteLen p')))

/-- The entry can be used: an absolute path, dependencies only for a named crate, a known kind of root. -/
def Usable (e : Fixture) : Prop :=
  (∃ rest, e.path = '/' :: rest) ∧ (e.deps ≠ [] → e.krate ≠ none) ∧
  ∀ k, e.newRoot = some k → k = "local".toList ∨ k = "library".toList

/-- The number of entries that open a source root. -/
def opened (es : List Fixture) : Nat := (es.filter fun e => e.newRoot.isSome).length

/-- The database made of the entries. -/
structure Describes (es : List Fixture) (r : ChangeFixture) : Prop where
  /-- The files are numbered in order, and each has the text its entry stands for. -/
  files : r.files = List.range es.length
  texts_length : r.texts.length = es.length
  texts : ∀ (i : Nat) e, es[i]? = some e → ∃ u m, r.texts[i]? = some (i, u) ∧ Becomes e.text u m
  /-- The position is the marked one. -/
  position : ∀ i m, r.position = some (i, m) ↔ ∃ e u, es[i]? = some e ∧ Becomes e.text u (some m)
  /-- The first source root is local, and each entry that opens one opens one of its kind. -/
  kinds : r.roots.map (·.1) = false :: (es.filterMap (·.newRoot)).map (fun k => k == "library".toList)
  /-- Each file is in the source root opened last, and nothing else is in a root. -/
  owner : ∀ (i : Nat) e, es[i]? = some e → ∃ root, r.roots[opened (es.take (i + 1))]? = some root ∧ (i, e.path) ∈ root.2
  roots : r.roots.flatMap (·.2) = (es.zipIdx).map fun (e, i) => (i, e.path)

end Spec

open Spec

theorem hasEscaped_iff (t : Text) : contains ('\\' :: cursorMarker) t = true ↔ HasEscaped t := by
  rw [contains_iff]
  constructor
  · rintro ⟨a, b, e⟩; exact ⟨a, b, by rw [e]; simp [cursorMarker]⟩
  · rintro ⟨a, b, e⟩; exact ⟨a, b, by rw [e]; simp [cursorMarker]⟩

theorem hasMarker_iff (t : Text) : contains cursorMarker t = true ↔ ¬ Free t := by
  unfold contains
  have := find_none t
  cases h : find cursorMarker t with
  | none => simp [this.1 h]
  | some n => simp; intro hf; rw [this.2 hf] at h; cases h

theorem unescape_step (c : Char) (cs : Text) :
    (∃ q, c :: cs = '\\' :: '$' :: '0' :: q ∧ unescapeMarkers (c :: cs) = '$' :: '0' :: unescapeMarkers q) ∨
    ((∀ q, c :: cs ≠ '\\' :: '$' :: '0' :: q) ∧ unescapeMarkers (c :: cs) = c :: unescapeMarkers cs) := by
  by_cases h : (c == '\\' && cursorMarker.isPrefixOf cs) = true
  · left
    rw [Bool.and_eq_true, beq_iff_eq, List.isPrefixOf_iff_prefix] at h
    obtain ⟨rfl, q, rfl⟩ := h
    refine ⟨q, rfl, ?_⟩
    simp [unescapeMarkers, cursorMarker, List.isPrefixOf]
  · right
    constructor
    · rintro q e
      obtain ⟨rfl, rfl⟩ := List.cons.inj e
      exact h (by simp [cursorMarker, List.isPrefixOf])
    · rw [unescapeMarkers, if_neg h]

theorem unescaped_unescape (t : Text) : ∀ n, t.length ≤ n → Unescaped t (unescapeMarkers t) := by
  intro n
  induction n generalizing t with
  | zero =>
    intro h
    rw [List.length_eq_zero_iff.1 (by omega : t.length = 0)]
    exact .done (by rintro ⟨p, q, e⟩; simp at e)
  | succ n ih =>
    intro h
    cases t with
    | nil => exact .done (by rintro ⟨p, q, e⟩; simp at e)
    | cons c cs =>
      rcases unescape_step c cs with ⟨q, e, e'⟩ | ⟨hn, e'⟩
      · rw [e', e]
        have hl := congrArg List.length e
        simp at hl h
        exact Unescaped.next (p := []) (by rintro ⟨p, q, e⟩; simp at e) (ih q (by omega))
      · rw [e']
        have := ih cs (by simpa using h)
        generalize unescapeMarkers cs = u at this
        cases this with
        | done hd =>
          refine .done ?_
          rintro ⟨p, q, e⟩
          cases p with
          | nil => exact hn q e
          | cons x p => exact hd ⟨p, q, (List.cons.inj e).2⟩
        | @next p q u hp hq =>
          refine Unescaped.next (p := c :: p) ?_ hq
          rintro ⟨p', q', e⟩
          cases p' with
          | nil => exact hn _ (by rw [← List.cons_append, e]; rfl)
          | cons x p' => exact hp ⟨p', q', (List.cons.inj e).2⟩

theorem unescape_behind (p : Text) (hp : ¬ HasEscaped p) (q : Text) :
    unescapeMarkers (p ++ '\\' :: '$' :: '0' :: q) = p ++ '$' :: '0' :: unescapeMarkers q := by
  induction p with
  | nil => simp [unescapeMarkers, cursorMarker, List.isPrefixOf]
  | cons c p ih =>
    have hp' : ¬ HasEscaped p := fun ⟨a, b, e⟩ => hp ⟨c :: a, b, by rw [e]; rfl⟩
    rcases unescape_step c (p ++ '\\' :: '$' :: '0' :: q) with ⟨r, e, _⟩ | ⟨_, e'⟩
    · exfalso
      obtain ⟨rfl, e2⟩ := List.cons.inj e
      match p, e2 with
      | [], e2 => simp at e2
      | [x], e2 => simp at e2
      | x :: y :: p, e2 =>
        simp only [List.cons_append, List.cons.injEq] at e2
        obtain ⟨rfl, rfl, _⟩ := e2
        exact hp ⟨[], p, rfl⟩
    · rw [List.cons_append, e', ih hp']; rfl

theorem unescape_none (t : Text) (h : ¬ HasEscaped t) : unescapeMarkers t = t := by
  induction t with
  | nil => rfl
  | cons c t ih =>
    rcases unescape_step c t with ⟨r, e, _⟩ | ⟨_, e'⟩
    · exact absurd ⟨[], r, e⟩ h
    · rw [e', ih fun ⟨a, b, e⟩ => h ⟨c :: a, b, by rw [e]; rfl⟩]

/-- Each backslash in front of a marker goes, and nothing else. -/
theorem unescaped_iff (t u : Text) : Unescaped t u ↔ unescapeMarkers t = u := by
  constructor
  · intro h
    induction h with
    | done h => exact unescape_none _ h
    | next hp _ ih => rw [unescape_behind _ hp, ih]
  · rintro rfl
    exact unescaped_unescape t t.length (Nat.le_refl _)

/-- The text and the position of an entry. -/
theorem entryText_iff (t u : Text) (m : Option RangeOrOffset) : entryText t = some (u, m) ↔ Becomes t u m := by
  unfold entryText
  by_cases hf : Free t
  · rw [if_neg (fun h => (hasMarker_iff t).1 h hf)]
    constructor
    · intro h
      simp only [Option.some.injEq, Prod.mk.injEq] at h
      obtain ⟨rfl, rfl⟩ := h
      exact .plain hf
    · intro h
      cases h with
      | plain => rfl
      | escaped he => obtain ⟨p, q, e⟩ := he; exact absurd (show MarkerAt t (p ++ ['\\']) q by simp [MarkerAt, e]) (hf _ _)
      | offset _ h1 => exact absurd h1.1 (hf _ _)
      | range _ h1 => exact absurd h1.1 (hf _ _)
  · rw [if_pos ((hasMarker_iff t).2 hf)]
    by_cases he : HasEscaped t
    · rw [if_pos ((hasEscaped_iff t).2 he)]
      constructor
      · intro h
        simp only [Option.some.injEq, Prod.mk.injEq] at h
        obtain ⟨h, rfl⟩ := h
        exact .escaped he ((unescaped_iff t u).2 h)
      · intro h
        cases h with
        | plain h => exact absurd h hf
        | escaped _ h => rw [(unescaped_iff t u).1 h]
        | offset h => exact absurd he h
        | range h => exact absurd he h
    · rw [if_neg (fun h => he ((hasEscaped_iff t).1 h))]
      obtain ⟨p, q, h1⟩ : ∃ p q, FirstMarker t p q := (free_or_first t).resolve_left hf
      have e1 := try_extract_first h1
      rcases free_or_first (p ++ q) with h2 | ⟨p', q', h2⟩
      · have e2 := try_extract_free h2
        have e : extractRangeOrOffset t = some (.offset (byteLen p), p ++ q) := by
          simp only [extractRangeOrOffset, tryExtractRange, e1, e2, extractOffset]; rfl
        rw [e]
        constructor
        · intro h
          simp only [Option.map_some, Option.some.injEq, Prod.mk.injEq] at h
          obtain ⟨rfl, rfl⟩ := h
          exact .offset he h1 h2
        · intro h
          cases h with
          | plain h => exact absurd h hf
          | escaped h => exact absurd h he
          | offset _ h => obtain ⟨rfl, rfl⟩ := firstMarker_unique h1 h; rfl
          | range _ h h' => obtain ⟨rfl, rfl⟩ := firstMarker_unique h1 h; exact absurd h'.1 (h2 _ _)
      · have e2 := try_extract_first h2
        constructor
        · intro h
          simp only [extractRangeOrOffset, tryExtractRange, e1, e2, extractOffset] at h
          by_cases hle : byteLen p ≤ byteLen p'
          · rw [if_pos hle] at h
            simp only [Option.map_some, Option.some.injEq, Prod.mk.injEq] at h
            obtain ⟨rfl, rfl⟩ := h
            exact .range he h1 h2 hle
          · rw [if_neg hle] at h; simp at h
        · intro h
          cases h with
          | plain h => exact absurd h hf
          | escaped h => exact absurd h he
          | offset _ h h' => obtain ⟨rfl, rfl⟩ := firstMarker_unique h1 h; exact absurd h2.1 (h' _ _)
          | range _ h h' hle =>
            obtain ⟨rfl, rfl⟩ := firstMarker_unique h1 h
            obtain ⟨rfl, rfl⟩ := firstMarker_unique h2 h'
            simp only [extractRangeOrOffset, tryExtractRange, e1, e2, if_pos hle]
            rfl

/-- What is left of the loop once it is over. -/
def FixtureState.result (s : FixtureState) : ChangeFixture :=
  { position := s.position, files := s.files, texts := s.change, roots := s.roots ++ [(s.library, s.fileSet)] }

theorem rootKind_iff (k : Text) (b : Bool) :
    rootKind k = some b ↔ (k = "local".toList ∨ k = "library".toList) ∧ b = (k == "library".toList) := by
  unfold rootKind
  by_cases h1 : k = "local".toList
  · subst h1; cases b <;> simp
  · by_cases h2 : k = "library".toList
    · subst h2; cases b <;> simp
    · rw [if_neg h1, if_neg h2]
      exact ⟨fun h => (by cases h), fun h => absurd h.1 (by rintro (h | h) <;> contradiction)⟩

/-- The state behind a usable entry. -/
def FixtureState.after (s : FixtureState) (e : Fixture) (u : Text) (m : Option RangeOrOffset) : FixtureState :=
  { change := s.change ++ [(s.fileId, u)], files := s.files ++ [s.fileId],
    fileSet := (if e.newRoot.isSome then [] else s.fileSet) ++ [(s.fileId, e.path)],
    library := match e.newRoot with
      | some k => k == "library".toList
      | none => s.library,
    fileId := s.fileId + 1,
    roots := if e.newRoot.isSome then s.roots ++ [(s.library, s.fileSet)] else s.roots,
    position := match m with
      | some p => some (s.fileId, p)
      | none => s.position }

theorem fixtureEntry_iff (s s' : FixtureState) (e : Fixture) :
    fixtureEntry s e = some s' ↔ ∃ u m, Becomes e.text u m ∧ (m.isSome → s.position = none) ∧ Usable e ∧
      s' = s.after e u m := by
  unfold fixtureEntry
  cases ht : entryText e.text with
  | none =>
    constructor
    · intro h; cases h
    · rintro ⟨u, m, h, _⟩
      rw [(entryText_iff _ _ _).2 h] at ht; cases ht
  | some um =>
    obtain ⟨u, m⟩ := um
    have hb := (entryText_iff _ _ _).1 ht
    have hrhs : (∃ u m, Becomes e.text u m ∧ (m.isSome → s.position = none) ∧ Usable e ∧ s' = s.after e u m) ↔
        (m.isSome → s.position = none) ∧ Usable e ∧ s' = s.after e u m := by
      constructor
      · rintro ⟨u', m', h', h⟩
        rw [(entryText_iff _ _ _).2 h'] at ht
        cases ht
        exact h
      · intro h; exact ⟨u, m, hb, h⟩
    rw [hrhs]
    simp only
    by_cases hp : (m.isSome && s.position.isSome) = true
    · rw [if_pos hp]
      rw [Bool.and_eq_true] at hp
      constructor
      · intro h; cases h
      · rintro ⟨h, _⟩; rw [h hp.1] at hp; simp at hp
    · rw [if_neg hp]
      have hp' : m.isSome → s.position = none := by
        intro h; cases hpos : s.position with
        | none => rfl
        | some p => rw [h, hpos] at hp; simp at hp
      have hpath : startsWith e.path "/" = true ↔ ∃ rest, e.path = '/' :: rest := by
        rw [startsWith, List.isPrefixOf_iff_prefix]
        exact ⟨fun ⟨r, h⟩ => ⟨r, h.symm⟩, fun ⟨r, h⟩ => ⟨r, h.symm⟩⟩
      by_cases h1 : startsWith e.path "/" = true
      · rw [if_neg (by rw [h1]; decide)]
        by_cases h2 : (!e.deps.isEmpty && e.krate.isNone) = true
        · rw [if_pos h2]
          constructor
          · intro h; cases h
          · rintro ⟨_, ⟨_, h, _⟩, _⟩
            rw [Bool.and_eq_true] at h2
            exact absurd (Option.isNone_iff_eq_none.1 h2.2) (h (by intro hd; rw [hd] at h2; simp at h2))
        · rw [if_neg h2]
          have h2' : e.deps ≠ [] → e.krate ≠ none := by
            intro hd hk
            apply h2
            rw [hk]
            cases hx : e.deps with
            | nil => exact absurd hx hd
            | cons => rfl
          cases hr : e.newRoot with
          | none =>
            simp only [Option.some.injEq]
            have hu : Usable e := ⟨hpath.1 h1, h2', by intro k hk; rw [hr] at hk; cases hk⟩
            constructor
            · intro h
              refine ⟨hp', hu, ?_⟩
              rw [← h]; simp [FixtureState.after, hr]; cases m <;> rfl
            · rintro ⟨_, _, h⟩
              rw [h]; simp [FixtureState.after, hr]; cases m <;> rfl
          | some k =>
            simp only
            cases hk : rootKind k with
            | none =>
              constructor
              · intro h; cases h
              · rintro ⟨_, ⟨_, _, h⟩, _⟩
                rw [(rootKind_iff k _).2 ⟨h k hr, rfl⟩] at hk
                cases hk
            | some b =>
              obtain ⟨hkk, rfl⟩ := (rootKind_iff k b).1 hk
              have hu : Usable e := ⟨hpath.1 h1, h2', by intro k' hk; rw [hr] at hk; cases hk; exact hkk⟩
              simp only [Option.some.injEq]
              constructor
              · intro h
                refine ⟨hp', hu, ?_⟩
                rw [← h]; simp [FixtureState.after, hr]; cases m <;> rfl
              · rintro ⟨_, _, h⟩
                rw [h]; simp [FixtureState.after, hr]; cases m <;> rfl
      · rw [if_pos (by simp [h1])]
        constructor
        · intro h; cases h
        · rintro ⟨_, ⟨h, _⟩, _⟩; exact absurd (hpath.2 h) h1

theorem becomes_unique {t u u' : Text} {m m' : Option RangeOrOffset} (h : Becomes t u m) (h' : Becomes t u' m') :
    u = u' ∧ m = m' := by
  have := (entryText_iff _ _ _).2 h
  rw [(entryText_iff _ _ _).2 h'] at this
  cases this
  exact ⟨rfl, rfl⟩

theorem opened_append (a b : List Fixture) : opened (a ++ b) = opened a + opened b := by
  simp [opened, List.filter_append]

theorem opened_kinds (es : List Fixture) : (es.filterMap (·.newRoot)).length = opened es := by
  induction es with
  | nil => rfl
  | cons e es ih =>
    cases hr : e.newRoot with
    | none => simp [hr, opened] at ih ⊢; exact ih
    | some k => simp [hr, opened] at ih ⊢; exact ih

theorem describes_after {es : List Fixture} {s : FixtureState} (hs : s.fileId = es.length) (h : Describes es s.result)
    {e : Fixture} {u : Text} {m : Option RangeOrOffset} (hb : Becomes e.text u m) (hm : m.isSome → s.position = none) :
    Describes (es ++ [e]) (s.after e u m).result := by
  have hlen : s.roots.length = opened es := by
    have h1 := congrArg List.length h.kinds
    have h2 := opened_kinds es
    simp [FixtureState.result] at h1
    omega
  constructor
  · simp [FixtureState.result, FixtureState.after, List.range_succ, hs]
    exact h.files
  · simp [FixtureState.result, FixtureState.after]
    exact h.texts_length
  · intro i e' he
    have hl := h.texts_length
    simp only [FixtureState.result] at hl
    by_cases hi : i < es.length
    · rw [List.getElem?_append_left hi] at he
      obtain ⟨u', m', e1, e2⟩ := h.texts i e' he
      refine ⟨u', m', ?_, e2⟩
      simp only [FixtureState.result, FixtureState.after]
      rw [List.getElem?_append_left (by omega)]
      exact e1
    · have hi' : i = es.length := by
        have := (List.getElem?_eq_some_iff.1 he).1
        simp at this; omega
      subst hi'
      simp at he
      subst he
      refine ⟨u, m, ?_, hb⟩
      simp [FixtureState.result, FixtureState.after, ← hl, hs]
  · intro i m'
    have hpos := h.position i m'
    simp only [FixtureState.result] at hpos
    simp only [FixtureState.result, FixtureState.after]
    have hold : ∀ i' m'', s.position = some (i', m'') → i' < es.length := by
      intro i' m'' hx
      obtain ⟨e', u', he, _⟩ := (h.position i' m'').1 hx
      exact (List.getElem?_eq_some_iff.1 he).1
    cases m with
    | none =>
      simp only
      rw [hpos]
      constructor
      · rintro ⟨e', u', he, hb'⟩
        exact ⟨e', u', by rw [List.getElem?_append_left (List.getElem?_eq_some_iff.1 he).1]; exact he, hb'⟩
      · rintro ⟨e', u', he, hb'⟩
        by_cases hi : i < es.length
        · rw [List.getElem?_append_left hi] at he
          exact ⟨e', u', he, hb'⟩
        · have hi' : i = es.length := by
            have := (List.getElem?_eq_some_iff.1 he).1
            simp at this; omega
          subst hi'
          simp at he
          subst he
          cases (becomes_unique hb hb').2
    | some p =>
      simp only [Option.some.injEq, Prod.mk.injEq]
      have hnone := hm rfl
      constructor
      · rintro ⟨rfl, rfl⟩
        exact ⟨e, u, by simp [hs], hb⟩
      · rintro ⟨e', u', he, hb'⟩
        by_cases hi : i < es.length
        · rw [List.getElem?_append_left hi] at he
          have := hpos.2 ⟨e', u', he, hb'⟩
          rw [hnone] at this; cases this
        · have hi' : i = es.length := by
            have := (List.getElem?_eq_some_iff.1 he).1
            simp at this; omega
          subst hi'
          simp at he
          subst he
          cases (becomes_unique hb hb').2
          exact ⟨hs, rfl⟩
  · have hk := h.kinds
    simp only [FixtureState.result] at hk
    cases hr : e.newRoot with
    | none =>
      simp [FixtureState.result, FixtureState.after, hr] at hk ⊢
      exact hk
    | some k =>
      simp [FixtureState.result, FixtureState.after, hr] at hk ⊢
      rw [← List.cons_append, ← hk, List.append_assoc]
      rfl
  · intro i e' he
    by_cases hi : i < es.length
    · rw [List.getElem?_append_left hi] at he
      obtain ⟨root, e1, e2⟩ := h.owner i e' he
      rw [List.take_append_of_le_length (by omega)]
      simp only [FixtureState.result] at e1
      cases hr : e.newRoot with
      | none =>
        simp only [FixtureState.result, FixtureState.after, hr]
        by_cases hlast : opened (es.take (i + 1)) < s.roots.length
        · rw [List.getElem?_append_left hlast] at e1
          exact ⟨root, by simpa [List.getElem?_append_left hlast] using e1, e2⟩
        · have hx := (List.getElem?_eq_some_iff.1 e1).1
          simp at hx
          have hx' : opened (es.take (i + 1)) = s.roots.length := by omega
          rw [hx'] at e1 ⊢
          simp at e1
          subst e1
          refine ⟨(s.library, s.fileSet ++ [(s.fileId, e.path)]), by simp, ?_⟩
          exact List.mem_append_left _ e2
      | some k =>
        refine ⟨root, ?_, e2⟩
        simp only [FixtureState.result, FixtureState.after, hr]
        have hx := (List.getElem?_eq_some_iff.1 e1).1
        simp only [Option.isSome_some, if_true]
        rw [List.getElem?_append_left hx]
        exact e1
    · have hi' : i = es.length := by
        have := (List.getElem?_eq_some_iff.1 he).1
        simp at this; omega
      subst hi'
      simp at he
      subst he
      rw [List.take_of_length_le (by simp), opened_append]
      cases hr : e.newRoot with
      | none =>
        have : opened [e] = 0 := by simp [opened, hr]
        rw [this, Nat.add_zero, ← hlen]
        simp [FixtureState.result, FixtureState.after, hr, hs]
      | some k =>
        have : opened [e] = 1 := by simp [opened, hr]
        rw [this, ← hlen]
        have hx : s.roots.length + 1 = (s.roots ++ [(s.library, s.fileSet)]).length := by simp
        simp only [FixtureState.result, FixtureState.after, hr, Option.isSome_some, if_true]
        rw [hx]
        exact ⟨_, List.getElem?_concat_length, by simp [hs]⟩
  · have hr := h.roots
    simp only [FixtureState.result] at hr
    rw [List.zipIdx_append, List.map_append, ← hr]
    cases hn : e.newRoot with
    | none => simp [FixtureState.result, FixtureState.after, hn, hs]
    | some k => simp [FixtureState.result, FixtureState.after, hn, hs]

/-- The entries can be made a database: each is usable, and at most one has a position marked. -/
def Spec.Makes (es : List Fixture) : Prop :=
  (∀ e ∈ es, Usable e ∧ ∃ u m, Becomes e.text u m) ∧
  ∀ (i j : Nat) e e' u u' m m', es[i]? = some e → es[j]? = some e' →
    Becomes e.text u (some m) → Becomes e'.text u' (some m') → i = j

theorem fold_describes (rest : List Fixture) : ∀ (done : List Fixture) (s : FixtureState), s.fileId = done.length →
    Describes done s.result → Makes done →
    (∀ s', rest.foldlM fixtureEntry s = some s' → Describes (done ++ rest) s'.result) ∧
    ((rest.foldlM fixtureEntry s).isSome ↔ Makes (done ++ rest)) := by
  induction rest with
  | nil =>
    intro done s _ h hm
    simp only [List.foldlM_nil, List.append_nil]
    refine ⟨?_, ?_⟩
    · intro s' h'; cases h'; exact h
    · exact ⟨fun _ => hm, fun _ => rfl⟩
  | cons e rest ih =>
    intro done s hs h hm
    rw [List.foldlM_cons]
    cases hx : fixtureEntry s e with
    | none =>
      refine ⟨fun s' h' => (by cases h'), ⟨fun h' => (by cases h'), ?_⟩⟩
      intro hall
      exfalso
      obtain ⟨hu, u, m, hb⟩ := hall.1 e (by simp)
      have : fixtureEntry s e = some (s.after e u m) := by
        refine (fixtureEntry_iff _ _ _).2 ⟨u, m, hb, ?_, hu, rfl⟩
        intro hm'
        cases m with
        | none => cases hm'
        | some p =>
          cases hpos : s.position with
          | none => rfl
          | some ip =>
            obtain ⟨i, p'⟩ := ip
            obtain ⟨e', u', he', hb'⟩ := (h.position i p').1 hpos
            have hi := (List.getElem?_eq_some_iff.1 he').1
            have := hall.2 i done.length e' e u' u p' p (by rw [List.getElem?_append_left hi]; exact he') (by simp) hb' hb
            omega
      rw [this] at hx; cases hx
    | some s1 =>
      obtain ⟨u, m, hb, hmp, hu, rfl⟩ := (fixtureEntry_iff _ _ _).1 hx
      have h1 := describes_after hs h hb hmp
      have hm1 : Makes (done ++ [e]) := by
        refine ⟨?_, ?_⟩
        · intro e' he'
          rcases List.mem_append.1 he' with he' | he'
          · exact hm.1 e' he'
          · rw [List.mem_singleton] at he'; subst he'; exact ⟨hu, u, m, hb⟩
        · intro i j e1 e2 u1 u2 m1 m2 g1 g2 b1 b2
          have q1 := (h1.position i m1).2 ⟨e1, u1, g1, b1⟩
          have q2 := (h1.position j m2).2 ⟨e2, u2, g2, b2⟩
          rw [q1] at q2; cases q2; rfl
      have := ih (done ++ [e]) (s.after e u m) (by simp [FixtureState.after, hs]) h1 hm1
      rw [List.append_assoc, List.singleton_append] at this
      exact this

theorem describes_nil : Describes [] (FixtureState.result {}) := by
  constructor
  · rfl
  · rfl
  · intro i e h; simp at h
  · intro i m
    constructor
    · intro h; cases h
    · rintro ⟨e, u, h, _⟩; simp at h
  · rfl
  · intro i e h; simp at h
  · rfl

/-- C72, the part that holds: whatever entries a fixture has, the database made of them has exactly their
files, numbered in order and with their markers taken out, the marked position, and the source roots they open. -/
theorem fixture_database_partial (es : List Fixture) :
    (∀ r, changeOf es = some r → Describes es r) ∧ ((changeOf es).isSome ↔ Makes es) := by
  have h := fold_describes es [] {} rfl describes_nil ⟨by simp, by intro i j e e' u u' m m' h; simp at h⟩
  rw [List.nil_append] at h
  unfold changeOf
  refine ⟨?_, ?_⟩
  · intro r hr
    cases hx : es.foldlM fixtureEntry {} with
    | none => rw [hx] at hr; cases hr
    | some s =>
      rw [hx] at hr
      cases hr
      exact h.1 s hx
  · rw [Option.isSome_map]; exact h.2

/-- Two files of a library behind a local one, with a range and an escaped marker. -/
example : changeOf [⟨"/a".toList, "x$0y$0z".toList, none, [], none⟩, ⟨"/b".toList, "\\$0".toList, none, [], some "library".toList⟩,
      ⟨"/c".toList, "c".toList, some "k".toList, ["d".toList], none⟩] =
    some { position := some (0, .range (1, 2)), files := [0, 1, 2],
           texts := [(0, "xyz".toList), (1, "$0".toList), (2, "c".toList)],
           roots := [(false, [(0, "/a".toList)]), (true, [(1, "/b".toList), (2, "/c".toList)])] } ∧
    changeOf [⟨"a".toList, [], none, [], none⟩] = none := by decide +kernel

end Verif.TestUtils
