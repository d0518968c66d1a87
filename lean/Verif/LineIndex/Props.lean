import Verif.LineIndex.Lemmas

/-!
Properties C01-C05 of the line index.
-/

namespace Verif.LineIndex

/-- A sample text with one-, two-, three- and four-byte characters: "aț\n€😀x\n". -/
def sample : Text := ['a', 'ț', '\n', '€', '😀', 'x', '\n']

/-! ## C01 -/

/-- C01: every byte offset (inside a character or not) has a position, and converting the
position back gives the offset. -/
theorem offset_lineCol_roundtrip (t : Text) (off : Nat) :
    ∃ lc, (new t).lineCol off = some lc ∧ (new t).offset lc = some off := by
  obtain ⟨n, start, _, hget, hle, hlc⟩ := lineCol_total (new t) _ (new_newlines_eq t) off
  refine ⟨_, hlc, ?_⟩
  simp only [LineIndex.offset, hget]
  congr 1; omega

example : (new sample).lineCol 9 = some ⟨1, 5⟩ ∧ (new sample).offset ⟨1, 5⟩ = some 9 := by decide

/-- C01, the other direction: a position whose line exists and whose offset lies before the
start of the next line is recovered from its offset. -/
theorem lineCol_offset_roundtrip (t : Text) (lc : LineCol) (off : Nat)
    (h : (new t).offset lc = some off)
    (hnext : ∀ s, (new t).newlines[lc.line + 1]? = some s → off < s) :
    (new t).lineCol off = some lc := by
  obtain ⟨line, col⟩ := lc
  simp only at hnext
  obtain ⟨n, start, hpp, hget, hle, hlc⟩ := lineCol_total (new t) _ (new_newlines_eq t) off
  rw [hlc]
  unfold LineIndex.offset at h
  split at h
  · simp at h
  · rename_i s hs
    simp only [Option.some.injEq] at h
    simp only at hs
    have hsorted := new_sorted t
    have hltn := (List.getElem?_eq_some_iff.1 hget).1
    have hltl := (List.getElem?_eq_some_iff.1 hs).1
    rw [List.pairwise_iff_getElem] at hsorted
    have e1 := (List.getElem?_eq_some_iff.1 hget).2
    have e2 := (List.getElem?_eq_some_iff.1 hs).2
    have hnl : n = line := by
      apply Nat.le_antisymm
      · apply Nat.le_of_not_lt
        intro hlt
        have hl1 : line + 1 < (new t).newlines.length := by omega
        have h3 := hnext _ (List.getElem?_eq_getElem hl1)
        by_cases he : line + 1 = n
        · subst he; omega
        · have := hsorted (line + 1) n hl1 hltn (by omega)
          omega
      · apply Nat.le_of_not_lt
        intro hlt
        have hn1 : n + 1 < (new t).newlines.length := by omega
        -- the element after the partition point is greater than `off`
        have hbig : off < (new t).newlines[n + 1] := by
          have hstop : (fun it => decide (it ≤ off)) (new t).newlines[n + 1] = false := by
            have hl : ((new t).newlines.takeWhile (fun it => decide (it ≤ off))).length = n + 1 := hpp
            have := @List.takeWhile_append_dropWhile _ (fun it => decide (it ≤ off)) (new t).newlines
            have hd : (new t).newlines[n + 1]? =
                ((new t).newlines.dropWhile (fun it => decide (it ≤ off)))[0]? := by
              conv => lhs; rw [← this]
              rw [List.getElem?_append_right (by omega), hl]; simp
            rw [List.getElem?_eq_getElem hn1] at hd
            cases hdw : (new t).newlines.dropWhile (fun it => decide (it ≤ off)) with
            | nil => rw [hdw] at hd; simp at hd
            | cons y ys =>
              rw [hdw] at hd
              simp at hd
              have hne : (new t).newlines.dropWhile (fun it => decide (it ≤ off)) ≠ [] := by
                rw [hdw]; simp
              have := List.head_dropWhile_not (fun it => decide (it ≤ off)) (l := (new t).newlines) hne
              simp only [hdw, List.head_cons] at this
              rw [hd]; exact this
          simpa using hstop
        by_cases he : n + 1 = line
        · subst he; omega
        · have := hsorted (n + 1) line hn1 hltl (by omega)
          omega
    subst hnl
    have : s = start := by rw [hget] at hs; simpa using hs.symm
    subst this
    simp; omega

example : (new sample).offset ⟨1, 3⟩ = some 7 ∧ (new sample).newlines[2]? = some 13 := by decide

/-! ## C02 -/

/-- C02: for every split of a text into a prefix and a rest, the position of the split is the
number of newlines in the prefix and the byte length of the prefix's last line. -/
theorem lineCol_is_position (p q : Text) :
    (new (p ++ q)).lineCol (byteLen p) = some ⟨newlineCount p, byteLen (lastLine p)⟩ :=
  lineCol_prefix p q

example : (new sample).lineCol (byteLen ['a', 'ț', '\n', '€'])
    = some ⟨newlineCount ['a', 'ț', '\n', '€'], byteLen (lastLine ['a', 'ț', '\n', '€'])⟩ :=
  lineCol_is_position ['a', 'ț', '\n', '€'] ['😀', 'x', '\n']

/-! ## C03 -/

/-- C03: at every character boundary the UTF-16 column is the number of UTF-16 code units
between the line start and the boundary. -/
theorem toUtf16_is_unit_count (p q : Text) :
    (new (p ++ q)).toUtf16 ⟨newlineCount p, byteLen (lastLine p)⟩
      = some ⟨newlineCount p, utf16Len (lastLine p)⟩ := by
  have h := toUtf16Loop_boundary (lastLine p) (q.takeWhile (· != '\n')) 0 (byteLen (lastLine p))
    (by omega)
  rw [Nat.zero_add] at h
  have hle := utf16Len_le_byteLen (lastLine p)
  unfold LineIndex.toUtf16 LineIndex.utf8ToUtf16Col
  simp only [new_chars, h]
  congr 2; omega

/-- C03: converting the UTF-16 column of a character boundary gives its byte column. -/
theorem toUtf8_is_byte_count (p q : Text) :
    (new (p ++ q)).toUtf8 ⟨newlineCount p, utf16Len (lastLine p)⟩
      = ⟨newlineCount p, byteLen (lastLine p)⟩ := by
  have h := toUtf8Loop_boundary (lastLine p) (q.takeWhile (· != '\n')) 0
  rw [Nat.zero_add, Nat.zero_add] at h
  unfold LineIndex.toUtf8 LineIndex.utf16ToUtf8Col
  simp only [new_chars, h]

/-- C03: the round trip byte offset → UTF-16 position → byte offset at character boundaries. -/
theorem utf16_roundtrip (p q : Text) :
    ∃ lc u, (new (p ++ q)).lineCol (byteLen p) = some lc ∧ (new (p ++ q)).toUtf16 lc = some u ∧
      u = ⟨newlineCount p, utf16Len (lastLine p)⟩ ∧
      (new (p ++ q)).offset ((new (p ++ q)).toUtf8 u) = some (byteLen p) := by
  refine ⟨_, _, lineCol_prefix p q, toUtf16_is_unit_count p q, rfl, ?_⟩
  rw [toUtf8_is_byte_count, offset_prefix]

/-- C03: the conversion to UTF-16 does not panic for the position of any byte offset, also one
inside a character. -/
theorem toUtf16_total (t : Text) (off : Nat) :
    ∃ lc u, (new t).lineCol off = some lc ∧ (new t).toUtf16 lc = some u := by
  obtain ⟨n, start, hpp, hget, hle, hlc⟩ := lineCol_total (new t) _ (new_newlines_eq t) off
  refine ⟨⟨n, off - start⟩, ?_⟩
  suffices hs : ∃ r, toUtf16Loop (off - start) ((new t).chars n) (off - start) = some r by
    obtain ⟨r, hr⟩ := hs
    exact ⟨⟨n, r⟩, hlc, by simp only [LineIndex.toUtf16, LineIndex.utf8ToUtf16Col, hr]⟩
  -- the recorded characters of line `n` are those of some line of the text
  have hline : ∃ p q, t = p ++ q ∧ newlineCount p = n := by
    have hn : n < (new t).newlines.length := (List.getElem?_eq_some_iff.1 hget).1
    rw [new_newlines_length] at hn
    exact exists_prefix_of_line t n (by omega)
  obtain ⟨p, q, rfl, rfl⟩ := hline
  rw [new_chars]
  exact toUtf16Loop_total _ 0 _ _ (by omega)

example : (new sample).toUtf16 ⟨1, 7⟩ = some ⟨1, 3⟩ ∧ (new sample).toUtf8 ⟨1, 3⟩ = ⟨1, 7⟩ := by decide

/-! ## C04 -/

/-- C04: position order is offset order, for all offsets. -/
theorem position_order_iff (t : Text) (a b : Nat) :
    ∃ la lb, (new t).lineCol a = some la ∧ (new t).lineCol b = some lb ∧
      (a < b ↔ PosLt (la.line, la.col) (lb.line, lb.col)) := by
  obtain ⟨n, s, hpp, hget, hle, hlc⟩ := lineCol_total (new t) _ (new_newlines_eq t) a
  obtain ⟨m, s', hpp', hget', hle', hlc'⟩ := lineCol_total (new t) _ (new_newlines_eq t) b
  refine ⟨_, _, hlc, hlc', ?_⟩
  have mono : ∀ x y, x ≤ y → partitionPoint (fun it => it ≤ x) (new t).newlines
      ≤ partitionPoint (fun it => it ≤ y) (new t).newlines := by
    intro x y hxy
    exact takeWhile_length_mono _ (by intro z hz; simp at hz ⊢; omega)
  simp only [PosLt]
  constructor
  · intro hab
    have := mono a b (by omega)
    by_cases hnm : n = m
    · subst hnm
      have : s = s' := by rw [hget] at hget'; simpa using hget'
      right; exact ⟨rfl, by omega⟩
    · left; omega
  · intro h
    apply Nat.lt_of_not_le
    intro hba
    have := mono b a hba
    rcases h with h | ⟨h1, h2⟩
    · omega
    · subst h1
      have : s = s' := by rw [hget] at hget'; simpa using hget'
      omega

example : (new sample).lineCol 2 = some ⟨0, 2⟩ ∧ (new sample).lineCol 8 = some ⟨1, 4⟩ ∧
    PosLt (0, 2) (1, 4) := by
  refine ⟨by decide, by decide, Or.inl (by decide)⟩

/-! ## C05 -/

/-- C05: for every text and every range the pieces exist (no panic), tile the range without
gaps, overlaps or empty pieces, and no piece has a line start strictly inside it. -/
theorem lines_tile_range (t : Text) (start stop : Nat) (hle : start ≤ stop) :
    ∃ ps, (new t).lines start stop = some ps ∧ Tiles start stop ps ∧
      ∀ r ∈ ps, ∀ p q, t = p ++ '\n' :: q → ¬ (r.1 < byteLen p + 1 ∧ byteLen p + 1 < r.2) := by
  obtain ⟨mid, hmem, hsorted, heq⟩ := lines_eq t start stop hle
  refine ⟨_, heq, tiles_of_sorted _ _ _ hsorted, ?_⟩
  intro r hr p q ht
  have hr' := (List.mem_filter.1 hr).1
  by_cases hin : byteLen p + 1 ∈ mid
  · exact piece_no_inner _ _ _ hsorted r hr' _ hin
  · -- the line start lies outside the whole range
    have hnl : byteLen p + 1 ∈ (new t).newlines := by
      rw [new_newlines_eq]
      have := (mem_starts_iff 0 t (byteLen p + 1)).2 ⟨p, q, ht, by omega⟩
      simp [this]
    rw [hmem] at hin
    have hb : ∀ x ∈ start :: (mid ++ [stop]), start ≤ x ∧ x ≤ stop := by
      intro x hx
      simp at hx
      rcases hx with rfl | hx | rfl
      · exact ⟨Nat.le_refl _, hle⟩
      · exact ((hmem x).1 hx).2
      · exact ⟨hle, Nat.le_refl _⟩
    have h1 := hb r.1 (List.of_mem_zip hr').1
    have h2 := hb r.2 (by have := (List.of_mem_zip hr').2; simp at this ⊢; right; exact this)
    rintro ⟨h3, h4⟩
    exact hin ⟨hnl, by omega, by omega⟩

example : (new sample).lines 1 13 = some [(1, 4), (4, 13)] := by decide

end Verif.LineIndex
