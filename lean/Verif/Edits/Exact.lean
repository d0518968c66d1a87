import Verif.Edits.Clamp

/-!
Exactly which changes of a document succeed, and what they do (C77, C78).
-/

set_option autoImplicit false

namespace Verif.Edits

open Verif.LineIndex

/-! ## Specification -/

namespace Spec

/-- How the server reads a position: `pos` leads to the point between `p` and `q` of the text
`p ++ q` when it is the position of that point; or when a line ends at `e`, and the column is past
that end by the number of bytes of what follows up to the point. -/
def Reads (p q : Text) (pos : Nat × Nat) : Prop :=
  pos = posOf p ∨
    ∃ e r, p = e ++ r ∧ LineEnds (r ++ q) ∧ pos = (newlineCount e, utf16Len (lastLine e) + byteLen r)

end Spec

/-! ## Lines of a text -/

theorem lastLine_append (p a : Text) (h : '\n' ∉ a) : lastLine (p ++ a) = lastLine p ++ a := by
  induction a using snoc_induction with
  | h0 => simp
  | h1 a c ih =>
    have hc : c ≠ '\n' := by rintro rfl; exact h (by simp)
    rw [← List.append_assoc, lastLine_concat, if_neg hc, ih (fun hm => h (by simp [hm])), List.append_assoc]

theorem newlineCount_append (p a : Text) (h : '\n' ∉ a) : newlineCount (p ++ a) = newlineCount p := by
  unfold newlineCount
  rw [List.count_append, List.count_eq_zero.2 h]; rfl

theorem mem_takeWhile_ne (c : Char) (b : Text) (h : c ∈ b.takeWhile (· != '\n')) : c ≠ '\n' := by
  induction b with
  | nil => simp at h
  | cons d b ih =>
    rw [List.takeWhile_cons] at h
    split at h
    · rename_i hd
      rcases List.mem_cons.1 h with rfl | h
      · simpa using hd
      · exact ih h
    · simp at h

theorem lineEnds_dropWhile (b : Text) : Spec.LineEnds (b.dropWhile (· != '\n')) := by
  induction b with
  | nil => exact Or.inl rfl
  | cons d b ih =>
    rw [List.dropWhile_cons]
    split
    · exact ih
    · rename_i hd
      have : d = '\n' := by simpa using hd
      exact Or.inr ⟨b, by rw [this]⟩

/-- The line with a given number. -/
theorem line_of (t : Text) (L st : Nat) (h : (new t).newlines[L]? = some st) :
    ∃ p line rest, t = p ++ (line ++ rest) ∧ newlineCount p = L ∧ lastLine p = [] ∧ '\n' ∉ line ∧
      Spec.LineEnds rest := by
  obtain ⟨p, b, rfl, h1, h2⟩ := newlines_split h
  refine ⟨p, b.takeWhile (· != '\n'), b.dropWhile (· != '\n'), by rw [List.takeWhile_append_dropWhile], h1, ?_,
    fun hm => mem_takeWhile_ne _ _ hm rfl, lineEnds_dropWhile b⟩
  have h3 : (new (p ++ b)).newlines[newlineCount p]? = some (byteLen p - byteLen (lastLine p)) := by
    have hlen := after_newlines_length p
    rw [new_newlines p b, List.getElem?_append_left (by omega)]; exact after_newlines_last p
  rw [h1, h] at h3
  simp only [Option.some.injEq] at h3
  have h4 := byteLen_lastLine_le p
  have h5 : byteLen (lastLine p) = 0 := by omega
  cases hl : lastLine p with
  | nil => rfl
  | cons c cs => rw [hl] at h5; have := utf8Size_pos c; simp at h5; omega

/-- A column within a line is a character boundary or the middle of a character of two units. -/
theorem column_of (line : Text) (c : Nat) (h : c < utf16Len line) :
    ∃ a ch b, line = a ++ ch :: b ∧ (c = utf16Len a ∨ (c = utf16Len a + 1 ∧ unit16 ch = 2)) := by
  induction line generalizing c with
  | nil => simp at h
  | cons d line ih =>
    simp only [utf16Len_cons] at h
    by_cases h0 : c = 0
    · exact ⟨[], d, line, rfl, Or.inl (by simp [h0])⟩
    · by_cases h1 : c < unit16 d
      · have : unit16 d ≤ 2 := by unfold unit16; split <;> omega
        exact ⟨[], d, line, rfl, Or.inr ⟨by simp; omega, by omega⟩⟩
      · obtain ⟨a, ch, b, e, h2⟩ := ih (c - unit16 d) (by omega)
        refine ⟨d :: a, ch, b, by rw [e]; rfl, ?_⟩
        simp only [utf16Len_cons]
        rcases h2 with h2 | h2
        · left; omega
        · right; omega

/-- The middle of a character of two units is read as the last byte of its encoding. -/
theorem toUtf8Loop_middle (a : Text) (ch : Char) (b : Text) (c0 : Nat) (h2 : unit16 ch = 2) :
    toUtf8Loop (recorded c0 (a ++ ch :: b)) (c0 + utf16Len a + 1) = c0 + byteLen a + 3 := by
  have h4 : ch.utf8Size = 4 := (utf8Size_eq_four_iff ch).2 h2
  induction a generalizing c0 with
  | nil =>
    have hc : ¬ ch.val.toNat < 128 := by
      intro hc; have := unit16_eq_one_of_ascii ch hc; omega
    simp only [List.nil_append, recorded, utf16Len_nil, byteLen_nil, Nat.add_zero]
    rw [if_neg hc]
    simp only [toUtf8Loop]
    rw [if_pos (by omega), lenUtf16_eq, h2]
    have hlen : Utf16Char.len ⟨c0, c0 + ch.utf8Size⟩ = 4 := by simp [Utf16Char.len, h4]
    rw [hlen]
    cases hr : recorded (c0 + ch.utf8Size) b with
    | nil => simp [toUtf8Loop]
    | cons u us =>
      have := recorded_start_ge _ b u (by rw [hr]; simp)
      simp only [toUtf8Loop]
      rw [if_neg (by omega)]
  | cons c cs ih =>
    have h1 := unit16_le_utf8Size c
    have hu := unit16_pos c
    simp only [List.cons_append, recorded, byteLen_cons, utf16Len_cons] at *
    by_cases hc : c.val.toNat < 128
    · rw [if_pos hc]
      have e1 : c.utf8Size = 1 := (utf8Size_eq_one_iff c).2 hc
      have e2 := unit16_eq_one_of_ascii c hc
      rw [show c0 + (unit16 c + utf16Len cs) + 1 = c0 + c.utf8Size + utf16Len cs + 1 by omega, ih]
      omega
    · rw [if_neg hc]
      simp only [toUtf8Loop]
      rw [if_pos (by omega)]
      have hlen : Utf16Char.len ⟨c0, c0 + c.utf8Size⟩ = c.utf8Size := by simp [Utf16Char.len]
      rw [lenUtf16_eq, hlen, show c0 + (unit16 c + utf16Len cs) + 1 + (c.utf8Size - unit16 c)
        = c0 + c.utf8Size + utf16Len cs + 1 by omega, ih]
      omega

/-! ## Positions -/

theorem offset_past' (p q : Text) :
    offset (new (p ++ q)) .utf16 ⟨newlineCount p, utf16Len (lastLine p)⟩ = some (byteLen p) := by
  have hb := toUtf8Loop_boundary (lastLine p) (q.takeWhile (· != '\n')) 0
  simp only [Nat.zero_add] at hb
  simp only [offset, LineIndex.toUtf8, LineIndex.utf16ToUtf8Col]
  rw [new_chars, hb]
  exact offset_prefix p q

theorem offset_middle (p : Text) (ch : Char) (q : Text) (h : unit16 ch = 2) :
    offset (new (p ++ ch :: q)) .utf16 ⟨newlineCount p, utf16Len (lastLine p) + 1⟩ = some (byteLen p + 3) := by
  have hne : ch ≠ '\n' := by rintro rfl; revert h; decide
  have hb := toUtf8Loop_middle (lastLine p) ch (q.takeWhile (· != '\n')) 0 h
  simp only [Nat.zero_add] at hb
  simp only [offset, LineIndex.toUtf8, LineIndex.utf16ToUtf8Col]
  have ht : (ch :: q).takeWhile (· != '\n') = ch :: q.takeWhile (· != '\n') := by
    rw [List.takeWhile_cons, if_pos (by simpa using hne)]
  rw [new_chars, ht, hb]
  exact offset_shift p (ch :: q) 3

/-- The point a position leads to. -/
theorem reads_iff (t : Text) (pos : Nat × Nat) (p q : Text) :
    (∃ off, offset (new t) .utf16 ⟨pos.1, pos.2⟩ = some off ∧ splitAtByte off t = some (p, q)) ↔
      t = p ++ q ∧ Spec.Reads p q pos := by
  constructor
  · rintro ⟨off, ho, hs⟩
    obtain ⟨rfl, rfl⟩ := splitAtByte_some hs
    refine ⟨rfl, ?_⟩
    obtain ⟨st, hst⟩ := offset_line_exists ho
    obtain ⟨p0, line, rest, e, h1, h2, h3, h4⟩ := line_of _ _ _ hst
    simp only at h1
    have hpre : ∀ a, '\n' ∉ a → newlineCount (p0 ++ a) = pos.1 ∧ lastLine (p0 ++ a) = a := fun a ha =>
      ⟨by rw [newlineCount_append _ _ ha, h1], by rw [lastLine_append _ _ ha, h2]; rfl⟩
    by_cases hc : pos.2 < utf16Len line
    · obtain ⟨a, ch, b, rfl, h5⟩ := column_of line pos.2 hc
      have ha : '\n' ∉ a := fun hm => h3 (by simp [hm])
      obtain ⟨k1, k2⟩ := hpre a ha
      rcases h5 with h5 | ⟨h5, h6⟩
      · left
        have ho' := offset_past' (p0 ++ a) (ch :: b ++ rest)
        have e' : p ++ q = (p0 ++ a) ++ (ch :: b ++ rest) := by rw [e]; simp
        rw [← e', k1, k2, ← h5, ho] at ho'
        simp only [Option.some.injEq] at ho'
        have e1 : p = p0 ++ a := by
          obtain ⟨r, hr1, hr2⟩ := prefix_split e'.symm (by omega)
          have : byteLen r = 0 := by rw [hr1] at ho'; simp at ho' ⊢; omega
          cases r with
          | nil => simpa using hr1
          | cons c cs => have h9 := utf8Size_pos c; simp at this; omega
        rw [e1]
        exact Prod.ext k1.symm (by simp only [Spec.posOf]; rw [k2]; exact h5)
      · exfalso
        have ho' := offset_middle (p0 ++ a) ch (b ++ rest) h6
        have e' : p ++ q = (p0 ++ a) ++ (ch :: (b ++ rest)) := by rw [e]; simp
        rw [← e', k1, k2, ← h5, ho] at ho'
        simp only [Option.some.injEq] at ho'
        have h4 : ch.utf8Size = 4 := (utf8Size_eq_four_iff ch).2 h6
        obtain ⟨r, hr1, hr2⟩ := prefix_split e'.symm (by omega)
        cases r with
        | nil => rw [hr1] at ho'; simp at ho'
        | cons c cs =>
          simp only [List.cons_append, List.cons.injEq] at hr2
          rw [hr1, ← hr2.1] at ho'
          simp at ho'
          omega
    · right
      obtain ⟨k1, k2⟩ := hpre line h3
      have e' : p ++ q = (p0 ++ line) ++ rest := by rw [e]; simp
      have ho' := offset_past (p0 ++ line) rest h4 (pos.2 - utf16Len line)
      rw [← e', k1, k2, show utf16Len line + (pos.2 - utf16Len line) = pos.2 by omega, ho] at ho'
      simp only [Option.some.injEq] at ho'
      obtain ⟨r, hr1, hr2⟩ := prefix_split e'.symm (by omega)
      refine ⟨p0 ++ line, r, hr1, by rw [← hr2]; exact h4, ?_⟩
      refine Prod.ext k1.symm ?_
      rw [k2]
      rw [hr1] at ho'
      simp at ho' ⊢
      omega
  · rintro ⟨rfl, h | ⟨e, r, rfl, h1, rfl⟩⟩
    · subst h
      exact ⟨_, offset_past' p q, splitAtByte_prefix p q⟩
    · have ho := offset_past e (r ++ q) h1 (byteLen r)
      have hs := splitAtByte_prefix (e ++ r) q
      refine ⟨_, by rw [List.append_assoc]; exact ho, ?_⟩
      rw [← hs]; simp

/-! ## Changes -/

/-- **C77 and C78, what the code does**, for every text and range: a change succeeds exactly if both
positions lead to points of the text, the second not before the first; it then replaces what is
between the points. -/
theorem ranged_change_exactly (t new' t' : Text) (a b : Nat × Nat) :
    applyDocumentChanges t [toChange (.ranged a b new')] = some t' ↔
      ∃ p m q, t = p ++ m ++ q ∧ Spec.Reads p (m ++ q) a ∧ Spec.Reads (p ++ m) q b ∧ t' = p ++ new' ++ q := by
  rw [apply_singleton]
  constructor
  · intro h
    simp only [freshStep, toChange] at h
    split at h
    · cases h
    · rename_i x y hxy
      unfold textRange at hxy
      split at hxy
      · rename_i u v hu hv
        unfold mkRange at hxy
        split at hxy
        · rename_i hle
          cases hxy
          unfold replaceRange at h
          split at h
          · rename_i p q0 p0 q hp hq
            cases h
            obtain ⟨e1, r1⟩ := (reads_iff t a p q0).1 ⟨x, hu, hp⟩
            obtain ⟨e2, r2⟩ := (reads_iff t b p0 q).1 ⟨y, hv, hq⟩
            have l1 := (splitAtByte_some hp).2
            have l2 := (splitAtByte_some hq).2
            obtain ⟨m, hm1, hm2⟩ := prefix_split (e1.symm.trans e2) (by omega)
            exact ⟨p, m, q, by rw [e2, hm1], by rw [← hm2]; exact r1, by rw [← hm1]; exact r2, rfl⟩
          · cases h
        · cases hxy
      · cases hxy
  · rintro ⟨p, m, q, rfl, r1, r2, rfl⟩
    obtain ⟨u, hu, hp⟩ := (reads_iff (p ++ m ++ q) a p (m ++ q)).2 ⟨by simp, r1⟩
    obtain ⟨v, hv, hq⟩ := (reads_iff (p ++ m ++ q) b (p ++ m) q).2 ⟨rfl, r2⟩
    have l1 := (splitAtByte_some hp).2
    have l2 := (splitAtByte_some hq).2
    have hle : u ≤ v := by rw [l1, l2]; simp
    simp only [freshStep, toChange, textRange, hu, hv, mkRange, hle, if_true, replaceRange, hp, hq]

namespace Spec

/-- `Does t es t'`: the server's reading of a list of edits, one after the other. -/
inductive Does : Text → List Edit → Text → Prop where
  | nil (t : Text) : Does t [] t
  | full {new' es t''} (t : Text) : Does new' es t'' → Does t (.full new' :: es) t''
  | ranged {p m q a b new' es t''} : Reads p (m ++ q) a → Reads (p ++ m) q b → Does (p ++ new' ++ q) es t'' →
      Does (p ++ m ++ q) (.ranged a b new' :: es) t''

end Spec

/-- **C77 and C78**, for whole notifications without ranges that end on an earlier line than they
start on. -/
theorem changes_exactly (t t' : Text) (es : List Spec.Edit)
    (hwf : ∀ a b x, Spec.Edit.ranged a b x ∈ es → a.1 ≤ b.1) :
    applyDocumentChanges t (es.map toChange) = some t' ↔ Spec.Does t es t' := by
  rw [changes_are_sequential]
  · clear hwf
    induction es generalizing t with
    | nil =>
      simp only [List.map_nil, List.foldlM_nil]
      constructor
      · intro h; cases h; exact .nil _
      · intro h; cases h; rfl
    | cons e es ih =>
      simp only [List.map_cons, List.foldlM_cons]
      constructor
      · intro h
        cases hs : applyDocumentChanges t [toChange e] with
        | none => rw [hs] at h; cases h
        | some u =>
          rw [hs] at h
          have h' := (ih u).1 h
          cases e with
          | full new' =>
            rw [apply_singleton] at hs
            cases hs
            exact .full _ h'
          | ranged a b new' =>
            obtain ⟨p, m, q, rfl, h1, h2, rfl⟩ := (ranged_change_exactly t new' u a b).1 hs
            exact .ranged h1 h2 h'
      · intro h
        cases h with
        | full _ h =>
          rename_i new'
          have hs : applyDocumentChanges t [toChange (.full new')] = some new' := by rw [apply_singleton]; rfl
          rw [hs]
          exact (ih _).2 h
        | @ranged p m q a b new' _ _ h1 h2 h =>
          rw [(ranged_change_exactly _ new' _ a b).2 ⟨p, m, q, rfl, h1, h2, rfl⟩]
          exact (ih _).2 h
  · intro c hc r hr
    obtain ⟨e, he, rfl⟩ := List.mem_map.1 hc
    cases e with
    | full x => cases hr
    | ranged a b x => cases hr; exact hwf a b x he

/-- Both ways of reading a position occur, and a position in the middle of a character of two units
leads nowhere. -/
example : Spec.Reads ['a'] ['\n', 'b'] (0, 1) ∧ Spec.Reads ['a', '\n', 'b'] [] (0, 3) ∧
    applyDocumentChanges ['😀'] [toChange (.ranged (0, 1) (0, 1) ['x'])] = none :=
  ⟨Or.inl rfl, Or.inr ⟨['a'], ['\n', 'b'], rfl, Or.inr ⟨['b'], rfl⟩, rfl⟩, by decide⟩

end Verif.Edits
