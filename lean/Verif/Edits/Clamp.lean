import Verif.Edits.Props

/-!
Positions past the end of a line (C78).
-/

set_option autoImplicit false

namespace Verif.Edits

open Verif.LineIndex

/-! ## Specification -/

namespace Spec

/-- The text ends here, or a new line begins with a line break: a position after `p` in `p ++ q` is
the end of its line. -/
def LineEnds (q : Text) : Prop := q = [] ∨ ∃ q', q = '\n' :: q'

/-- `Denotes p q pos`: in the text `p ++ q` the position `pos` stands for the point between `p` and
`q`.  "If the character value is greater than the line length it defaults back to the line length."
(LSP, Position). -/
def Denotes (p q : Text) (pos : Nat × Nat) : Prop :=
  pos.1 = newlineCount p ∧
    (pos.2 = utf16Len (lastLine p) ∨ (utf16Len (lastLine p) < pos.2 ∧ LineEnds q))

end Spec

/-! ## The column conversion past the end of a line -/

theorem toUtf8Loop_past (a : Text) (c0 k : Nat) :
    toUtf8Loop (recorded c0 a) (c0 + utf16Len a + k) = c0 + byteLen a + k := by
  induction a generalizing c0 with
  | nil => simp [recorded, toUtf8Loop]
  | cons c cs ih =>
    have h1 := unit16_le_utf8Size c
    have hu := unit16_pos c
    simp only [recorded, byteLen_cons, utf16Len_cons] at *
    by_cases hc : c.val.toNat < 128
    · rw [if_pos hc]
      have e1 : c.utf8Size = 1 := (utf8Size_eq_one_iff c).2 hc
      have e2 := unit16_eq_one_of_ascii c hc
      rw [show c0 + (unit16 c + utf16Len cs) + k = c0 + c.utf8Size + utf16Len cs + k by omega, ih]
      omega
    · rw [if_neg hc]
      simp only [toUtf8Loop]
      rw [if_pos (by omega)]
      have hl := lenUtf16_eq c c0
      have hlen : Utf16Char.len ⟨c0, c0 + c.utf8Size⟩ = c.utf8Size := by simp [Utf16Char.len]
      rw [hl, hlen, show c0 + (unit16 c + utf16Len cs) + k + (c.utf8Size - unit16 c)
        = c0 + c.utf8Size + utf16Len cs + k by omega, ih]
      omega

theorem offset_shift (p q : Text) (k : Nat) :
    (new (p ++ q)).offset ⟨newlineCount p, byteLen (lastLine p) + k⟩ = some (byteLen p + k) := by
  have h := offset_prefix p q
  unfold LineIndex.offset at *
  simp only at *
  split at h
  · cases h
  · rename_i st hst
    simp only [Option.some.injEq] at *
    omega

/-- What the code makes of a column past the end of the line: as many bytes after the line. -/
theorem offset_past (p q : Text) (hq : Spec.LineEnds q) (k : Nat) :
    offset (new (p ++ q)) .utf16 ⟨newlineCount p, utf16Len (lastLine p) + k⟩ = some (byteLen p + k) := by
  have ht : q.takeWhile (· != '\n') = [] := by
    rcases hq with rfl | ⟨q', rfl⟩ <;> simp
  have h := toUtf8Loop_past (lastLine p) 0 k
  simp only [Nat.zero_add] at h
  simp only [offset, LineIndex.toUtf8, LineIndex.utf16ToUtf8Col]
  rw [new_chars, ht, List.append_nil, h]
  exact offset_shift p q k

theorem splitAtByte_none (n : Nat) (t : Text) (h : byteLen t < n) : splitAtByte n t = none := by
  cases hs : splitAtByte n t with
  | none => rfl
  | some pq =>
    obtain ⟨p, q⟩ := pq
    obtain ⟨h1, h2⟩ := splitAtByte_some hs
    rw [h1] at h
    simp at h
    omega

/-! ## C78 -/

/-- **C78, partial.**  A range whose positions are within their lines is replaced.  Missing:
positions past the end of a line, for which it fails, see below. -/
theorem positions_within_lines_partial (p m q new' : Text) (a b : Nat × Nat)
    (ha : Spec.Denotes p (m ++ q) a) (hb : Spec.Denotes (p ++ m) q b)
    (ha' : a.2 ≤ utf16Len (lastLine p)) (hb' : b.2 ≤ utf16Len (lastLine (p ++ m))) :
    applyDocumentChanges (p ++ m ++ q) [toChange (.ranged a b new')] = some (p ++ new' ++ q) := by
  have ea : a = Spec.posOf p := by
    obtain ⟨h1, h2 | ⟨h2, _⟩⟩ := ha
    · exact Prod.ext h1 h2
    · omega
  have eb : b = Spec.posOf (p ++ m) := by
    obtain ⟨h1, h2 | ⟨h2, _⟩⟩ := hb
    · exact Prod.ext h1 h2
    · omega
  subst ea eb
  exact edit_replaces_range _ _ _ (.ranged p m q new')

example : Spec.Denotes ['a', '😀'] ['\n', 'b'] (0, 3) ∧ Spec.Denotes ['a', '😀'] ['\n', 'b'] (0, 9) ∧
    ¬ Spec.Denotes ['a'] ['😀', '\n', 'b'] (0, 9) := by
  refine ⟨⟨rfl, Or.inl rfl⟩, ⟨rfl, Or.inr ⟨by decide, Or.inr ⟨['b'], rfl⟩⟩⟩, ?_⟩
  rintro ⟨_, h | ⟨_, h | ⟨q', h⟩⟩⟩ <;> revert h <;> simp [lastLine, utf16Len, unit16]

/-- **C78 is violated**, for every text with more than one line: text inserted with a column past
the end of a line ends up in a later line.  Here `p` ends a line, `'\n' :: m ++ s` follows, and the
column is past the end by the number of bytes of `'\n' :: m`. -/
theorem overlong_column_reaches_later_lines (p m s new' : Text) (a : Nat × Nat)
    (ha : a = (newlineCount p, utf16Len (lastLine p) + (1 + byteLen m))) :
    Spec.Denotes p ('\n' :: (m ++ s)) a ∧
    applyDocumentChanges (p ++ '\n' :: (m ++ s)) [toChange (.ranged a a new')] =
      some (p ++ '\n' :: m ++ new' ++ s) := by
  subst ha
  refine ⟨⟨rfl, Or.inr ⟨by simp only; omega, Or.inr ⟨_, rfl⟩⟩⟩, ?_⟩
  have ho := offset_past p ('\n' :: (m ++ s)) (Or.inr ⟨_, rfl⟩) (1 + byteLen m)
  have hbl : byteLen p + (1 + byteLen m) = byteLen (p ++ '\n' :: m) := by
    have : Char.utf8Size '\n' = 1 := by decide
    simp [this]
  have hsp := splitAtByte_prefix (p ++ '\n' :: m) s
  simp only [List.append_assoc, List.cons_append] at hsp hbl
  rw [apply_singleton]
  simp only [freshStep, toChange, textRange, ho, mkRange, Nat.le_refl, if_true, replaceRange]
  rw [hbl, hsp]

/-- In particular the result is not what the protocol asks for, unless the inserted text and the
text it jumped over can be exchanged. -/
theorem overlong_column_is_wrong (p m s new' : Text) (h : new' ++ '\n' :: m ≠ '\n' :: m ++ new') (a : Nat × Nat)
    (ha : a = (newlineCount p, utf16Len (lastLine p) + (1 + byteLen m))) :
    applyDocumentChanges (p ++ '\n' :: (m ++ s)) [toChange (.ranged a a new')] ≠
      some (p ++ new' ++ '\n' :: (m ++ s)) := by
  rw [(overlong_column_reaches_later_lines p m s new' a ha).2]
  intro he
  simp only [Option.some.injEq] at he
  apply h
  have : p ++ ((new' ++ '\n' :: m) ++ s) = p ++ (('\n' :: m ++ new') ++ s) := by
    simpa using he.symm
  exact List.append_cancel_right (List.append_cancel_left this)

example : ['x'] ++ '\n' :: ['b'] ≠ '\n' :: ['b'] ++ ['x'] := by decide

/-- **C78 is violated** at the end of the text, and for every text: a column that is past the end of
the text ends the server. -/
theorem overlong_column_crashes (p q new' : Text) (hq : Spec.LineEnds q) (k : Nat) (hk : byteLen q < k) (a : Nat × Nat)
    (ha : a = (newlineCount p, utf16Len (lastLine p) + k)) :
    Spec.Denotes p q a ∧ applyDocumentChanges (p ++ q) [toChange (.ranged a a new')] = none := by
  subst ha
  refine ⟨⟨rfl, Or.inr ⟨by simp only; omega, hq⟩⟩, ?_⟩
  have ho := offset_past p q hq k
  rw [apply_singleton]
  simp only [freshStep, toChange, textRange, ho, mkRange, Nat.le_refl, if_true, replaceRange]
  rw [splitAtByte_none _ _ (by simp; omega)]

example : Spec.LineEnds ['\n', 'b'] ∧ byteLen ['\n', 'b'] < 3 := ⟨Or.inr ⟨['b'], rfl⟩, by decide⟩

/-- A line past the last line ends the server too. -/
theorem line_past_end_crashes (t new' : Text) (a b : Nat × Nat) (h : newlineCount t < a.1 ∨ newlineCount t < b.1) :
    applyDocumentChanges t [toChange (.ranged a b new')] = none := by
  have hnone : ∀ x : Nat × Nat, newlineCount t < x.1 → offset (new t) .utf16 ⟨x.1, x.2⟩ = none := by
    intro x hx
    have : (new t).newlines[x.1]? = none := by
      rw [List.getElem?_eq_none_iff, new_newlines_length]; omega
    simp [offset, LineIndex.offset, LineIndex.toUtf8, this]
  rw [apply_singleton]
  rcases h with h | h
  · simp only [freshStep, toChange, textRange, hnone a h]
  · simp only [freshStep, toChange, textRange, hnone b h]
    split <;> simp_all

end Verif.Edits
