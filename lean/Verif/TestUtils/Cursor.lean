import Verif.TestUtils.Model
import Verif.Lexer.Lemmas

set_option autoImplicit false

/-!
C40: cursor markers of fixtures.
-/

namespace Verif.TestUtils

open Lexer

namespace Spec

/-- The text has a marker `$0` behind `p` and before `q`. -/
def MarkerAt (t p q : Text) : Prop := t = p ++ '$' :: '0' :: q

/-- The text has no marker. -/
def Free (t : Text) : Prop := ∀ p q, ¬ MarkerAt t p q

/-- The first marker of the text is the one behind `p`. -/
def FirstMarker (t p q : Text) : Prop := MarkerAt t p q ∧ ∀ p' q', MarkerAt t p' q' → p.length ≤ p'.length

end Spec

open Spec

theorem find_none (t : Text) : find cursorMarker t = none ↔ Free t := by
  induction t with
  | nil => simp [find, cursorMarker, Free, MarkerAt]
  | cons c cs ih =>
    simp only [find]
    split
    · next h =>
      simp only [reduceCtorEq, false_iff]
      obtain ⟨q, hq⟩ := List.isPrefixOf_iff_prefix.1 h
      intro hf
      exact hf [] q (by simpa [MarkerAt, cursorMarker] using hq.symm)
    · next h =>
      rw [Option.map_eq_none_iff, ih]
      constructor
      · intro hf p q hm
        cases p with
        | nil => exact h (by simp only [MarkerAt, List.nil_append] at hm; rw [hm]; simp [cursorMarker, List.isPrefixOf])
        | cons x p =>
          simp only [MarkerAt, List.cons_append, List.cons.injEq] at hm
          exact hf p q hm.2
      · intro hf p q hm
        exact hf (c :: p) q (by simp only [MarkerAt] at hm ⊢; rw [hm]; rfl)

theorem find_some (t : Text) (n : Nat) :
    find cursorMarker t = some n ↔ ∃ p q, FirstMarker t p q ∧ n = byteLen p := by
  induction t generalizing n with
  | nil => simp [find, cursorMarker, FirstMarker, MarkerAt]
  | cons c cs ih =>
    simp only [find]
    split
    · next h =>
      obtain ⟨r, hr⟩ := List.isPrefixOf_iff_prefix.1 h
      have hr' : c :: cs = '$' :: '0' :: r := by simpa [cursorMarker] using hr.symm
      constructor
      · intro he
        obtain rfl := Option.some.inj he
        exact ⟨[], r, ⟨by simpa [MarkerAt] using hr', by simp⟩, rfl⟩
      · rintro ⟨p, q, ⟨_, hf⟩, rfl⟩
        have := hf [] r (by simpa [MarkerAt] using hr')
        have : p = [] := List.length_eq_zero_iff.1 (by simpa using this)
        subst this
        rfl
    · next h =>
      have hnil : ∀ q, ¬ MarkerAt (c :: cs) [] q := by
        intro q hm
        simp only [MarkerAt, List.nil_append] at hm
        exact h (by rw [hm]; simp [cursorMarker, List.isPrefixOf])
      have hcons : ∀ x p q, MarkerAt (c :: cs) (x :: p) q ↔ c = x ∧ MarkerAt cs p q := by
        intro x p q; simp [MarkerAt]
      rw [Option.map_eq_some_iff]
      constructor
      · rintro ⟨m, hm, rfl⟩
        obtain ⟨p, q, ⟨h1, h2⟩, rfl⟩ := (ih m).1 hm
        refine ⟨c :: p, q, ⟨(hcons _ _ _).2 ⟨rfl, h1⟩, ?_⟩, rfl⟩
        intro p' q' hm'
        cases p' with
        | nil => exact absurd hm' (hnil _)
        | cons x p' =>
          have := h2 p' q' ((hcons _ _ _).1 hm').2
          simp only [List.length_cons]; omega
      · rintro ⟨p, q, ⟨h1, h2⟩, rfl⟩
        cases p with
        | nil => exact absurd h1 (hnil _)
        | cons x p =>
          obtain ⟨rfl, h3⟩ := (hcons _ _ _).1 h1
          refine ⟨byteLen p, (ih _).2 ⟨p, q, ⟨h3, ?_⟩, rfl⟩, rfl⟩
          intro p' q' hm'
          have := h2 (c :: p') q' ((hcons _ _ _).2 ⟨rfl, hm'⟩)
          simpa using this

theorem firstMarker_unique {t p q p' q' : Text} (h : FirstMarker t p q) (h' : FirstMarker t p' q') :
    p = p' ∧ q = q' := by
  have h1 := h.2 _ _ h'.1
  have h2 := h'.2 _ _ h.1
  have e : p ++ '$' :: '0' :: q = p' ++ '$' :: '0' :: q' := h.1.symm.trans h'.1
  have := List.append_inj e (by omega)
  exact ⟨this.1, by simpa using this.2⟩

theorem try_extract_first {t p q : Text} (h : FirstMarker t p q) :
    tryExtractOffset t = some (some (byteLen p, p ++ q)) := by
  have hf := (find_some t (byteLen p)).2 ⟨p, q, h, rfl⟩
  have ht : t = p ++ (['$', '0'] ++ q) := by simpa [MarkerAt] using h.1
  have h2 : sliceFrom t (byteLen p + byteLen cursorMarker) = some q := by
    have e : t = (p ++ ['$', '0']) ++ q := by rw [ht]; simp
    rw [e, show byteLen p + byteLen cursorMarker = byteLen (p ++ ['$', '0']) by simp [cursorMarker]]
    exact sliceFrom_prefix _ _
  simp only [tryExtractOffset, hf, h2]
  rw [ht, sliceRange_zero_prefix]

theorem try_extract_free {t : Text} (h : Free t) : tryExtractOffset t = some none := by
  simp [tryExtractOffset, (find_none t).2 h]

/-- Every text has a first marker or none. -/
theorem free_or_first (t : Text) : Free t ∨ ∃ p q, FirstMarker t p q := by
  cases h : find cursorMarker t with
  | none => exact .inl ((find_none t).1 h)
  | some n =>
    obtain ⟨p, q, hf, _⟩ := (find_some t n).1 h
    exact .inr ⟨p, q, hf⟩

/-- The extracted offset is the start of the first marker, the extracted text is the text without it. -/
theorem extract_offset_iff (t : Text) (n : Nat) (t' : Text) :
    extractOffset t = some (n, t') ↔ ∃ p q, FirstMarker t p q ∧ n = byteLen p ∧ t' = p ++ q := by
  rcases free_or_first t with hf | ⟨p, q, hf⟩
  · simp only [extractOffset, try_extract_free hf, reduceCtorEq, false_iff]
    rintro ⟨p, q, h, _⟩
    exact hf p q h.1
  · simp only [extractOffset, try_extract_first hf, Option.some.injEq, Prod.mk.injEq]
    constructor
    · rintro ⟨rfl, rfl⟩; exact ⟨p, q, hf, rfl, rfl⟩
    · rintro ⟨p', q', h', rfl, rfl⟩
      obtain ⟨rfl, rfl⟩ := firstMarker_unique hf h'
      exact ⟨rfl, rfl⟩

/-- Extraction panics exactly if the text has no marker. -/
theorem extract_offset_panics_iff (t : Text) : extractOffset t = none ↔ Free t := by
  rcases free_or_first t with hf | ⟨p, q, hf⟩
  · simp only [extractOffset, try_extract_free hf, true_iff]; exact hf
  · simp only [extractOffset, try_extract_first hf, reduceCtorEq, false_iff]
    intro h; exact h p q hf.1

/-- A marker put into a text without markers is the first one. -/
theorem inserted_is_first {p q : Text} (h : Free (p ++ q)) : FirstMarker (p ++ '$' :: '0' :: q) p q := by
  refine ⟨rfl, ?_⟩
  intro p' q' hm
  simp only [MarkerAt] at hm
  apply Classical.byContradiction
  intro hlt
  have hlt : p'.length < p.length := by omega
  rcases List.append_eq_append_iff.1 hm with ⟨a, e1, e2⟩ | ⟨a, e1, e2⟩
  · rw [e1] at hlt; simp at hlt; omega
  · -- `p = p' ++ a`
    cases a with
    | nil => rw [e1] at hlt; simp at hlt
    | cons x a =>
      simp only [List.cons_append, List.cons.injEq] at e2
      obtain ⟨rfl, e2⟩ := e2
      cases a with
      | nil => simp at e2
      | cons y a =>
        simp only [List.cons_append, List.cons.injEq] at e2
        obtain ⟨rfl, e2⟩ := e2
        exact h p' (a ++ q) (by simp [MarkerAt, e1])

/-- C40: putting a marker at an offset of a text without markers and extracting it gives back the
offset and the text; `add_cursor` accepts exactly the offsets of characters and the end. -/
theorem cursor_round_trip (t : Text) (h : Free t) (offset : Nat) :
    (IsBoundary t offset → ∃ t', addCursor t offset = some t' ∧ extractOffset t' = some (offset, t)) ∧
    (¬ IsBoundary t offset → addCursor t offset = none) := by
  constructor
  · rintro ⟨p, q, rfl, rfl⟩
    refine ⟨p ++ '$' :: '0' :: q, ?_, ?_⟩
    · simp [addCursor, sliceRange_zero_prefix, sliceFrom_prefix]
    · exact (extract_offset_iff _ _ _).2 ⟨p, q, inserted_is_first h, rfl, rfl⟩
  · intro hb
    simp only [addCursor]
    split
    · next a b _ h2 =>
      obtain ⟨p, e1, e2⟩ := sliceFrom_some h2
      exact absurd ⟨p, b, e1, e2⟩ hb
    · rfl

/-- Two markers put around a piece of a text without markers give back the range and the text. -/
theorem range_round_trip (p m q : Text) (h : Free (p ++ (m ++ q))) :
    extractRange (p ++ '$' :: '0' :: (m ++ '$' :: '0' :: q))
      = some ((byteLen p, byteLen p + byteLen m), p ++ (m ++ q)) ∧
    extractRangeOrOffset (p ++ '$' :: '0' :: (m ++ '$' :: '0' :: q))
      = some (.range (byteLen p, byteLen p + byteLen m), p ++ (m ++ q)) := by
  have h1 : FirstMarker ((p ++ m) ++ '$' :: '0' :: q) (p ++ m) q := inserted_is_first (by simpa using h)
  have hpre : ∀ p' q', MarkerAt (p ++ '$' :: '0' :: (m ++ '$' :: '0' :: q)) p' q' → p.length ≤ p'.length := by
    intro p' q' hm
    simp only [MarkerAt] at hm
    apply Classical.byContradiction
    intro hlt
    rcases List.append_eq_append_iff.1 hm with ⟨a, e1, e2⟩ | ⟨a, e1, e2⟩
    · rw [e1] at hlt; simp at hlt
    · cases a with
      | nil => rw [e1] at hlt; simp at hlt
      | cons x a =>
        simp only [List.cons_append, List.cons.injEq] at e2
        obtain ⟨rfl, e2⟩ := e2
        cases a with
        | nil => simp at e2
        | cons y a =>
          simp only [List.cons_append, List.cons.injEq] at e2
          obtain ⟨rfl, e2⟩ := e2
          exact h p' (a ++ (m ++ q)) (by simp [MarkerAt, e1])
  have e1 := try_extract_first (t := p ++ '$' :: '0' :: (m ++ '$' :: '0' :: q)) ⟨rfl, hpre⟩
  have e2 := try_extract_first h1
  have e2' : tryExtractOffset (p ++ (m ++ '$' :: '0' :: q))
      = some (some (byteLen p + byteLen m, p ++ (m ++ q))) := by
    simpa using e2
  constructor
  · simp only [extractRange, tryExtractRange, e1, e2']
    rw [if_pos (by omega)]
  · simp only [extractRangeOrOffset, tryExtractRange, e1, e2']
    rw [if_pos (by omega)]

/-- A single marker is read as an offset. -/
theorem offset_round_trip (p q : Text) (h : Free (p ++ q)) :
    extractRangeOrOffset (p ++ '$' :: '0' :: q) = some (.offset (byteLen p), p ++ q) := by
  have e1 := try_extract_first (inserted_is_first h)
  simp only [extractRangeOrOffset, extractOffset, tryExtractRange, e1, try_extract_free h]
  rfl

example : Free "let aé = b;".toList ∧ addCursor "let aé = b;".toList 7 = some "let aé$0 = b;".toList := by
  constructor
  · exact (find_none _).1 (by decide)
  · decide

/-- In a text that had a marker-like rest the markers do not nest: removing the first marker can make a
new one in front of it, and the range is then refused by an assertion. -/
theorem removal_makes_marker : extractOffset "$$00".toList = some (1, "$0".toList) ∧
    extractRangeOrOffset "$$00".toList = none := by decide

end Verif.TestUtils
