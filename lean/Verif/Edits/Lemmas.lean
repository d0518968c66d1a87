import Verif.Edits.Model
import Verif.Edits.Spec
import Verif.LineIndex.Lemmas

namespace Verif.Edits

open Verif.LineIndex

theorem splitAtByte_prefix (p q : Text) : splitAtByte (byteLen p) (p ++ q) = some (p, q) := by
  induction p with
  | nil => simp [splitAtByte]
  | cons c cs ih =>
    have hp := utf8Size_pos c
    obtain ⟨n, hn⟩ : ∃ n, byteLen (c :: cs) = n + 1 := ⟨byteLen (c :: cs) - 1, by simp; omega⟩
    rw [hn]
    simp only [List.cons_append, splitAtByte]
    simp at hn
    rw [if_pos (by omega), show n + 1 - c.utf8Size = byteLen cs by omega, ih]

theorem splitAtByte_some {n : Nat} {t p q : Text} (h : splitAtByte n t = some (p, q)) :
    t = p ++ q ∧ n = byteLen p := by
  induction t generalizing n p q with
  | nil =>
    cases n with
    | zero => simp [splitAtByte] at h; simp [h]
    | succ n => simp [splitAtByte] at h
  | cons c cs ih =>
    cases n with
    | zero => simp [splitAtByte] at h; obtain ⟨rfl, rfl⟩ := h; simp
    | succ n =>
      simp only [splitAtByte] at h
      split at h
      · split at h
        · simp at h
        · rename_i p' q' heq
          simp at h
          obtain ⟨rfl, rfl⟩ := h
          obtain ⟨h1, h2⟩ := ih heq
          simp [h1]; omega
      · simp at h

/-- A boundary that lies not after another one gives a shorter prefix. -/
theorem prefix_split {a b p q : Text} (h : a ++ b = p ++ q) (hl : byteLen a ≤ byteLen p) :
    ∃ r, p = a ++ r ∧ b = r ++ q := by
  rcases List.append_eq_append_iff.1 h with ⟨r, h1, h2⟩ | ⟨r, h1, h2⟩
  · exact ⟨r, h1, h2⟩
  · subst h1
    simp at hl
    have : r = [] := by
      cases r with
      | nil => rfl
      | cons c cs => have := utf8Size_pos c; simp at hl; omega
    subst this
    exact ⟨[], by simp, by simpa using h2.symm⟩

/-- Two indexes give the same answers for one line. -/
def AgreeAt (a b : LineIndex) (L : Nat) : Prop :=
  a.newlines[L]? = b.newlines[L]? ∧ a.chars L = b.chars L

theorem offset_agree {a b : LineIndex} {enc : OffsetEncoding} {pos : Position}
    (h : AgreeAt a b pos.line) : offset a enc pos = offset b enc pos := by
  cases enc <;>
    simp [offset, LineIndex.offset, LineIndex.toUtf8, LineIndex.utf16ToUtf8Col, h.1, h.2]

theorem textRange_agree {a b : LineIndex} {enc : OffsetEncoding} {r : Range}
    (h1 : AgreeAt a b r.start.line) (h2 : AgreeAt a b r.stop.line) :
    textRange a enc r = textRange b enc r := by
  simp [textRange, offset_agree h1, offset_agree h2]

/-- A line start of a text splits it into complete lines and the rest. -/
theorem newlines_split {t : Text} {L st : Nat} (h : (new t).newlines[L]? = some st) :
    ∃ a b, t = a ++ b ∧ newlineCount a = L ∧ byteLen a = st := by
  induction t using snoc_induction generalizing L st with
  | h0 =>
    simp [new, NewState.init] at h
    cases L with
    | zero => simp at h; exact ⟨[], [], rfl, rfl, by simpa using h⟩
    | succ L => simp at h
  | h1 p c ih =>
    have hlen := new_newlines_length p
    have hn := new_newlines p [c]
    have hp : (new p).newlines = (after p).newlines := by simpa [starts] using new_newlines p []
    rw [hn, ← hp] at h
    by_cases hL : L < (new p).newlines.length
    · rw [List.getElem?_append_left hL] at h
      obtain ⟨a, b, hab, h1, h2⟩ := ih h
      exact ⟨a, b ++ [c], by simp [hab], h1, h2⟩
    · rw [List.getElem?_append_right (by omega)] at h
      unfold starts at h
      split at h
      · simp [starts] at h
        have hL' : L - (new p).newlines.length = 0 := by
          cases hh : L - (new p).newlines.length with
          | zero => rfl
          | succ k => rw [hh] at h; simp at h
        rw [hL'] at h
        rename_i hc
        refine ⟨p ++ [c], [], by simp, ?_, ?_⟩
        · rw [newlineCount_concat, if_pos hc]; omega
        · simp at h; simp; omega
      · simp [starts] at h

/-- Texts with a common prefix have indexes that agree on all lines before the one the prefix
ends on. -/
theorem agree_common_prefix (a b b' : Text) (L : Nat) (hL : L < newlineCount a) :
    AgreeAt (new (a ++ b)) (new (a ++ b')) L := by
  constructor
  · rw [new_newlines, new_newlines]
    have := after_newlines_length a
    rw [List.getElem?_append_left (by omega), List.getElem?_append_left (by omega)]
  · unfold LineIndex.chars new
    simp only [List.foldl_append]
    have h : L < (after a).line := by rw [after_line]; exact hL
    have h1 := lookup_later b (after a) L h
    have h2 := lookup_later b' (after a) L h
    unfold after at h1 h2
    simp only [h1, h2]

/-- The cached index is right where the validity mark says so. -/
def IndexOk (s : EditState) : Prop :=
  match s.valid with
  | .all => s.index = new s.text
  | .upToLineExclusive n => ∀ L, L < n → AgreeAt s.index (new s.text) L

/-- The change with a fresh index. -/
def freshStep (t : Text) (change : Change) : Option Text :=
  match change.range with
  | some range =>
    match textRange (new t) .utf16 range with
    | none => none
    | some (a, b) => replaceRange t a b change.text
  | none => some change.text

theorem offset_ge_line {li : LineIndex} {enc : OffsetEncoding} {pos : Position} {a st : Nat}
    (h : offset li enc pos = some a) (hst : li.newlines[pos.line]? = some st) : st ≤ a := by
  cases enc <;>
    simp [offset, LineIndex.offset, LineIndex.toUtf8, hst] at h <;> omega

theorem offset_line_exists {li : LineIndex} {enc : OffsetEncoding} {pos : Position} {a : Nat}
    (h : offset li enc pos = some a) : ∃ st, li.newlines[pos.line]? = some st := by
  cases enc <;>
    (simp only [offset, LineIndex.offset, LineIndex.toUtf8] at h
     split at h
     · simp at h
     · rename_i st hst; exact ⟨st, hst⟩)

theorem editStep_fresh (s : EditState) (change : Change) (hok : IndexOk s)
    (hwf : ∀ r, change.range = some r → r.start.line ≤ r.stop.line) :
    (∃ s', editStep s change = some s' ∧ freshStep s.text change = some s'.text ∧ IndexOk s') ∨
    (editStep s change = none ∧ freshStep s.text change = none) := by
  unfold editStep freshStep
  cases hr : change.range with
  | none =>
    left
    exact ⟨_, rfl, rfl, by intro L hL; omega⟩
  | some range =>
    have hle := hwf range hr
    simp only
    -- the index used agrees with a fresh one on all lines up to the end line
    have hagree : ∀ L, L ≤ range.stop.line →
        AgreeAt (if s.valid.covers range.stop.line = true then s.index else new s.text) (new s.text) L := by
      intro L hL
      unfold IndexOk at hok
      cases hv : s.valid with
      | all => rw [hv] at hok; simp only at hok; simp [IndexValid.covers, hok, AgreeAt]
      | upToLineExclusive n =>
        rw [hv] at hok
        simp only [IndexValid.covers]
        by_cases hc : range.stop.line < n
        · simp only [gt_iff_lt, hc, decide_true, if_true]
          exact hok L (by omega)
        · simp [hc, AgreeAt]
    generalize hidx : (if s.valid.covers range.stop.line = true then s.index else new s.text) = index at hagree
    rw [textRange_agree (hagree _ hle) (hagree _ (Nat.le_refl _))]
    cases htr : textRange (new s.text) OffsetEncoding.utf16 range with
    | none => right; exact ⟨rfl, rfl⟩
    | some ab =>
      obtain ⟨a, b⟩ := ab
      simp only
      cases hrep : replaceRange s.text a b change.text with
      | none => right; exact ⟨rfl, rfl⟩
      | some t' =>
        left
        refine ⟨_, rfl, rfl, ?_⟩
        intro L hL
        simp only at hL ⊢
        -- agreement with the new text on lines before the start line
        have h1 := hagree L (by omega)
        have hoff : offset (new s.text) .utf16 range.start = some a := by
          unfold textRange at htr
          split at htr
          · rename_i x y hx hy
            unfold mkRange at htr
            split at htr
            · simp at htr; rw [hx, htr.1]
            · simp at htr
          · simp at htr
        obtain ⟨st, hst⟩ := offset_line_exists hoff
        have hge := offset_ge_line hoff hst
        obtain ⟨pa, pb, hsplit, hcount, hbl⟩ := newlines_split hst
        unfold replaceRange at hrep
        split at hrep
        · rename_i p q0 p0 q hs1 hs2
          simp at hrep
          obtain ⟨e1, e2⟩ := splitAtByte_some hs1
          obtain ⟨r, hr1, hr2⟩ := prefix_split (hsplit.symm.trans e1) (by omega)
          have e3 : s.text = pa ++ pb := hsplit
          have e4 : t' = pa ++ (r ++ (change.text ++ q)) := by rw [← hrep, hr1]; simp
          have h2 := agree_common_prefix pa pb (r ++ (change.text ++ q)) L (by omega)
          rw [← e3, ← e4] at h2
          exact ⟨h1.1.trans h2.1, h1.2.trans h2.2⟩
        · simp at hrep

theorem foldlM_fresh (changes : List Change) (s : EditState) (hok : IndexOk s)
    (hwf : ∀ c ∈ changes, ∀ r, c.range = some r → r.start.line ≤ r.stop.line) :
    (changes.foldlM editStep s).map (·.text) = changes.foldlM freshStep s.text := by
  induction changes generalizing s with
  | nil => rfl
  | cons c cs ih =>
    simp only [List.foldlM_cons]
    rcases editStep_fresh s c hok (hwf c (by simp)) with ⟨s', h1, h2, h3⟩ | ⟨h1, h2⟩
    · rw [h1, h2]
      exact ih s' h3 (fun c hc => hwf c (by simp [hc]))
    · rw [h1, h2]; rfl

theorem apply_eq_map (t : Text) (changes : List Change) :
    applyDocumentChanges t changes
      = (changes.foldlM editStep { text := t, index := new t, valid := .all }).map (·.text) := by
  unfold applyDocumentChanges
  cases changes.foldlM editStep { text := t, index := new t, valid := .all } <;> rfl

theorem apply_singleton (t : Text) (c : Change) : applyDocumentChanges t [c] = freshStep t c := by
  rw [apply_eq_map]
  simp only [List.foldlM_cons, List.foldlM_nil, editStep, freshStep]
  cases hr : c.range with
  | none => rfl
  | some range =>
    simp only [IndexValid.covers, if_true]
    cases textRange (new t) .utf16 range with
    | none => rfl
    | some ab =>
      obtain ⟨a, b⟩ := ab
      simp only
      cases replaceRange t a b c.text <;> rfl

theorem freshStep_ranged (p m q new' : Text) :
    freshStep (p ++ m ++ q)
      ⟨some ⟨⟨(Spec.posOf p).1, (Spec.posOf p).2⟩, ⟨(Spec.posOf (p ++ m)).1, (Spec.posOf (p ++ m)).2⟩⟩, new'⟩
      = some (p ++ new' ++ q) := by
  have h1 : offset (new (p ++ m ++ q)) .utf16 ⟨(Spec.posOf p).1, (Spec.posOf p).2⟩ = some (byteLen p) := by
    have hb := toUtf8Loop_boundary (lastLine p) ((m ++ q).takeWhile (· != '\n')) 0
    simp only [Nat.zero_add] at hb
    have := offset_prefix p (m ++ q)
    simp only [offset, LineIndex.toUtf8, LineIndex.utf16ToUtf8Col, Spec.posOf]
    rw [List.append_assoc, new_chars, hb]
    exact this
  have h2 : offset (new (p ++ m ++ q)) .utf16 ⟨(Spec.posOf (p ++ m)).1, (Spec.posOf (p ++ m)).2⟩
      = some (byteLen (p ++ m)) := by
    have hb := toUtf8Loop_boundary (lastLine (p ++ m)) (q.takeWhile (· != '\n')) 0
    simp only [Nat.zero_add] at hb
    have := offset_prefix (p ++ m) q
    simp only [offset, LineIndex.toUtf8, LineIndex.utf16ToUtf8Col, Spec.posOf]
    rw [new_chars, hb]
    exact this
  unfold freshStep
  simp only [textRange, h1, h2, mkRange]
  rw [if_pos (by simp)]
  simp only [replaceRange]
  have s1 : splitAtByte (byteLen p) (p ++ m ++ q) = some (p, m ++ q) := by
    rw [List.append_assoc]; exact splitAtByte_prefix p (m ++ q)
  have s2 : splitAtByte (byteLen (p ++ m)) (p ++ m ++ q) = some (p ++ m, q) := splitAtByte_prefix _ _
  rw [s1, s2]

end Verif.Edits
