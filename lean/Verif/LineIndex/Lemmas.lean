import Verif.Text.Lemmas
import Verif.LineIndex.Model
import Verif.LineIndex.Spec

namespace Verif.LineIndex

/-- State of the construction loop after reading `p`. -/
def after (p : Text) : NewState := p.foldl newStep NewState.init

theorem after_concat (p : Text) (c : Char) : after (p ++ [c]) = newStep (after p) c := by
  simp [after, List.foldl_append]

/-- Line starts contributed by a text that begins at byte `row`. -/
def starts (row : Nat) : Text → List Nat
  | [] => []
  | c :: cs =>
    if c = '\n' then (row + c.utf8Size) :: starts (row + c.utf8Size) cs
    else starts (row + c.utf8Size) cs

theorem foldl_newlines (q : Text) (s : NewState) :
    (q.foldl newStep s).newlines = s.newlines ++ starts s.currRow q := by
  induction q generalizing s with
  | nil => simp [starts]
  | cons c cs ih =>
    simp only [List.foldl_cons, ih, starts]
    unfold newStep
    split <;> simp

theorem foldl_row (q : Text) (s : NewState) :
    (q.foldl newStep s).currRow = s.currRow + byteLen q := by
  induction q generalizing s with
  | nil => simp
  | cons c cs ih =>
    simp only [List.foldl_cons, ih, byteLen_cons]
    unfold newStep
    split <;> simp <;> omega

theorem after_row (p : Text) : (after p).currRow = byteLen p := by
  simp [after, foldl_row, NewState.init]

theorem snoc_induction {P : Text → Prop} (h0 : P []) (h1 : ∀ p c, P p → P (p ++ [c])) (p : Text) :
    P p := by
  have : ∀ r : Text, P r.reverse := by
    intro r
    induction r with
    | nil => exact h0
    | cons c cs ih => rw [List.reverse_cons]; exact h1 _ _ ih
  simpa using this p.reverse

theorem after_line (p : Text) : (after p).line = newlineCount p := by
  induction p using snoc_induction with
  | h0 => rfl
  | h1 p c ih =>
    rw [after_concat, newlineCount_concat]
    unfold newStep
    split <;> simp_all

theorem after_col (p : Text) : (after p).currCol = byteLen (lastLine p) := by
  induction p using snoc_induction with
  | h0 => rfl
  | h1 p c ih =>
    rw [after_concat, lastLine_concat]
    unfold newStep
    split <;> simp_all

/-- Recorded characters of a line read from column `col` on. -/
def recorded (col : Nat) : Text → List Utf16Char
  | [] => []
  | c :: cs =>
    if c.val.toNat < 128 then recorded (col + c.utf8Size) cs
    else ⟨col, col + c.utf8Size⟩ :: recorded (col + c.utf8Size) cs

theorem recorded_append (col : Nat) (p q : Text) :
    recorded col (p ++ q) = recorded col p ++ recorded (col + byteLen p) q := by
  induction p generalizing col with
  | nil => simp [recorded]
  | cons c cs ih =>
    simp only [List.cons_append, recorded, ih, byteLen_cons, Nat.add_assoc]
    split <;> simp

theorem after_chars (p : Text) : (after p).utf16Chars = recorded 0 (lastLine p) := by
  induction p using snoc_induction with
  | h0 => rfl
  | h1 p c ih =>
    have hc := after_col p
    rw [after_concat, lastLine_concat]
    unfold newStep
    split
    · simp [recorded]
    · simp only [recorded_append, ih, hc, Nat.zero_add]
      split <;> simp_all [recorded]

theorem saveChars_keys {lines line chars} (h : ∀ e ∈ lines, e.1 < line) :
    ∀ e ∈ saveChars lines line chars, e.1 < line + 1 := by
  intro e he
  unfold saveChars at he
  split at he
  · have := h e he; omega
  · simp at he
    rcases he with he | rfl
    · have := h e he; omega
    · simp

theorem after_keys (p : Text) : ∀ e ∈ (after p).utf16Lines, e.1 < (after p).line := by
  induction p using snoc_induction with
  | h0 => simp [after, NewState.init]
  | h1 p c ih =>
    rw [after_concat]
    unfold newStep
    split
    · simp only
      exact saveChars_keys ih
    · simpa using ih

theorem lookup_none_of_keys {lines : List (Nat × List Utf16Char)} {line : Nat}
    (h : ∀ e ∈ lines, e.1 < line) : lines.lookup line = none := by
  induction lines with
  | nil => rfl
  | cons e es ih =>
    obtain ⟨k, v⟩ := e
    have hk : k < line := h (k, v) (by simp)
    have : (line == k) = false := by simp; omega
    simp only [List.lookup, this]
    exact ih (fun e he => h e (by simp [he]))

theorem lookup_append (a b : List (Nat × List Utf16Char)) (line : Nat) :
    (a ++ b).lookup line = (a.lookup line).or (b.lookup line) := by
  induction a with
  | nil => simp
  | cons e es ih =>
    obtain ⟨k, v⟩ := e
    simp only [List.cons_append, List.lookup]
    split <;> simp_all

theorem lookup_saveChars {lines line chars} (h : ∀ e ∈ lines, e.1 < line) :
    ((saveChars lines line chars).lookup line).getD [] = chars := by
  unfold saveChars
  split
  · rw [lookup_none_of_keys h]; simp_all
  · rw [lookup_append, lookup_none_of_keys h]; simp [List.lookup]

/-- Later lines do not touch the record of an earlier line. -/
theorem lookup_later (q : Text) (s : NewState) (L : Nat) (h : L < s.line) :
    (saveChars (q.foldl newStep s).utf16Lines (q.foldl newStep s).line
      (q.foldl newStep s).utf16Chars).lookup L = s.utf16Lines.lookup L := by
  induction q generalizing s with
  | nil =>
    simp only [List.foldl_nil]
    unfold saveChars
    split
    · rfl
    · have hne : (L == s.line) = false := by simp; omega
      rw [lookup_append]; simp [List.lookup, hne]
  | cons c cs ih =>
    simp only [List.foldl_cons]
    have hl : L < (newStep s c).line := by
      unfold newStep; split <;> simp <;> omega
    rw [ih _ hl]
    unfold newStep
    split
    · simp only
      unfold saveChars
      split
      · rfl
      · have hne : (L == s.line) = false := by simp; omega
        rw [lookup_append]; simp [List.lookup, hne]
    · rfl

/-- The record of the current line when reading on. -/
theorem lookup_current (q : Text) (s : NewState) (hk : ∀ e ∈ s.utf16Lines, e.1 < s.line) :
    ((saveChars (q.foldl newStep s).utf16Lines (q.foldl newStep s).line
      (q.foldl newStep s).utf16Chars).lookup s.line).getD []
      = s.utf16Chars ++ recorded s.currCol (q.takeWhile (· != '\n')) := by
  induction q generalizing s with
  | nil =>
    simp only [List.foldl_nil, List.takeWhile_nil, recorded, List.append_nil]
    exact lookup_saveChars hk
  | cons c cs ih =>
    simp only [List.foldl_cons]
    by_cases hc : c = '\n'
    · have hl : s.line < (newStep s c).line := by
        unfold newStep; simp [hc]
      rw [lookup_later cs _ _ hl]
      have : (newStep s c).utf16Lines = saveChars s.utf16Lines s.line s.utf16Chars := by
        unfold newStep; simp [hc]
      rw [this, lookup_saveChars hk]
      simp [hc, recorded]
    · have h1 : (newStep s c).line = s.line := by unfold newStep; simp [hc]
      have h2 : (newStep s c).utf16Lines = s.utf16Lines := by unfold newStep; simp [hc]
      have h3 : (newStep s c).currCol = s.currCol + c.utf8Size := by unfold newStep; simp [hc]
      have h4 : (newStep s c).utf16Chars =
          if c.val.toNat < 128 then s.utf16Chars
          else s.utf16Chars ++ [{ start := s.currCol, stop := s.currCol + c.utf8Size }] := by
        unfold newStep; simp [hc]
      have := ih (newStep s c) (by rw [h1, h2]; exact hk)
      rw [h1] at this
      rw [this, h3, h4, List.takeWhile_cons]
      have hne : (c != '\n') = true := by simp [hc]
      rw [if_pos hne]
      simp only [recorded]
      split <;> simp

/-- The recorded characters of the line on which the prefix `p` of `p ++ q` ends. -/
theorem new_chars (p q : Text) :
    (new (p ++ q)).chars (newlineCount p)
      = recorded 0 (lastLine p ++ q.takeWhile (· != '\n')) := by
  unfold LineIndex.chars new
  simp only [List.foldl_append]
  have h := lookup_current q (after p) (after_keys p)
  rw [after_line, after_chars, after_col] at h
  rw [recorded_append, Nat.zero_add]
  exact h

theorem new_newlines (p q : Text) :
    (new (p ++ q)).newlines = (after p).newlines ++ starts (byteLen p) q := by
  unfold new
  simp only [List.foldl_append, foldl_newlines q]
  have := foldl_row p NewState.init
  simp [NewState.init] at this
  simp only [after, NewState.init, this]

theorem starts_gt (row : Nat) (q : Text) : ∀ n ∈ starts row q, row < n := by
  induction q generalizing row with
  | nil => simp [starts]
  | cons c cs ih =>
    intro n hn
    unfold starts at hn
    have hp := utf8Size_pos c
    split at hn
    · simp at hn
      rcases hn with rfl | hn
      · omega
      · have := ih _ _ hn; omega
    · have := ih _ _ hn; omega

theorem starts_sorted (row : Nat) (q : Text) : (starts row q).Pairwise (· < ·) := by
  induction q generalizing row with
  | nil => simp [starts]
  | cons c cs ih =>
    unfold starts
    split
    · exact List.Pairwise.cons (fun n hn => starts_gt _ _ n hn) (ih _)
    · exact ih _

theorem new_newlines_eq (t : Text) : (new t).newlines = 0 :: starts 0 t := by
  have := new_newlines [] t
  simpa [after, NewState.init] using this

theorem new_sorted (t : Text) : (new t).newlines.Pairwise (· < ·) := by
  rw [new_newlines_eq]
  exact List.Pairwise.cons (fun n hn => starts_gt _ _ n hn) (starts_sorted _ _)

theorem after_newlines_length (p : Text) : (after p).newlines.length = newlineCount p + 1 := by
  induction p using snoc_induction with
  | h0 => rfl
  | h1 p c ih =>
    rw [after_concat, newlineCount_concat]
    unfold newStep
    split <;> simp_all

theorem after_newlines_last (p : Text) :
    (after p).newlines[newlineCount p]? = some (byteLen p - byteLen (lastLine p)) := by
  induction p using snoc_induction with
  | h0 => rfl
  | h1 p c ih =>
    have hl := after_newlines_length p
    have hr := after_row p
    have hle := byteLen_lastLine_le p
    rw [after_concat, newlineCount_concat, lastLine_concat]
    unfold newStep
    split
    · simp only
      rw [List.getElem?_append_right (by omega)]
      simp [hl, hr]
    · simp only [Nat.add_zero, ih, byteLen_append]
      congr 1; omega

theorem after_newlines_le (p : Text) : ∀ n ∈ (after p).newlines, n ≤ byteLen p := by
  induction p using snoc_induction with
  | h0 => simp [after, NewState.init]
  | h1 p c ih =>
    have hr := after_row p
    rw [after_concat]
    unfold newStep
    split
    · intro n hn
      simp [hr] at hn ⊢
      rcases hn with hn | rfl
      · have := ih n hn; omega
      · omega
    · intro n hn
      have := ih n hn
      simp; omega

theorem takeWhile_append_stop {p : Nat → Bool} {a b : List Nat} (ha : ∀ x ∈ a, p x = true)
    (hb : ∀ x ∈ b, p x = false) : (a ++ b).takeWhile p = a := by
  induction a with
  | nil =>
    cases b with
    | nil => rfl
    | cons x xs => simp [hb x (by simp)]
  | cons x xs ih =>
    simp only [List.cons_append, List.takeWhile_cons]
    rw [if_pos (ha x (by simp)), ih (fun y hy => ha y (by simp [hy]))]

theorem takeWhile_length_mono {p q : Nat → Bool} (l : List Nat) (h : ∀ x, p x = true → q x = true) :
    (l.takeWhile p).length ≤ (l.takeWhile q).length := by
  induction l with
  | nil => simp
  | cons x xs ih =>
    simp only [List.takeWhile_cons]
    by_cases hp : p x = true
    · rw [if_pos hp, if_pos (h x hp)]; simp; omega
    · rw [if_neg hp]; simp

theorem takeWhile_length_le {p : Nat → Bool} (l : List Nat) : (l.takeWhile p).length ≤ l.length := by
  induction l with
  | nil => simp
  | cons x xs ih =>
    simp only [List.takeWhile_cons]
    split <;> simp <;> omega

theorem takeWhile_getElem {p : Nat → Bool} (l : List Nat) (i : Nat) (h : i < (l.takeWhile p).length) :
    ∃ x, l[i]? = some x ∧ p x = true := by
  induction l generalizing i with
  | nil => simp at h
  | cons x xs ih =>
    simp only [List.takeWhile_cons] at h
    split at h
    · cases i with
      | zero => exact ⟨x, rfl, by assumption⟩
      | succ i => simpa using ih i (by simpa using h)
    · simp at h

theorem takeWhile_eq_take {p : Nat → Bool} (l : List Nat) :
    l.takeWhile p = l.take (l.takeWhile p).length := by
  induction l with
  | nil => simp
  | cons x xs ih =>
    simp only [List.takeWhile_cons]
    split
    · simpa using ih
    · simp

theorem lineCol_total (li : LineIndex) (rest : List Nat) (h : li.newlines = 0 :: rest) (off : Nat) :
    ∃ n start, partitionPoint (fun it => it ≤ off) li.newlines = n + 1 ∧
      li.newlines[n]? = some start ∧ start ≤ off ∧ li.lineCol off = some ⟨n, off - start⟩ := by
  have hpp : partitionPoint (fun it => it ≤ off) li.newlines ≠ 0 := by
    unfold partitionPoint; rw [h]; simp [List.takeWhile_cons]
  obtain ⟨n, hn⟩ := Nat.exists_eq_succ_of_ne_zero hpp
  have hlt : n < (li.newlines.takeWhile (fun it => decide (it ≤ off))).length := by
    have : partitionPoint (fun it => it ≤ off) li.newlines
      = (li.newlines.takeWhile (fun it => decide (it ≤ off))).length := rfl
    omega
  obtain ⟨start, hs, hp⟩ := takeWhile_getElem _ _ hlt
  refine ⟨n, start, hn, hs, by simpa using hp, ?_⟩
  unfold LineIndex.lineCol
  rw [hn]
  simp only [hs]
  rw [if_pos (by simpa using hp)]

end Verif.LineIndex

namespace Verif.LineIndex

theorem recorded_start_ge (c0 : Nat) (l : Text) : ∀ u ∈ recorded c0 l, c0 ≤ u.start := by
  induction l generalizing c0 with
  | nil => simp [recorded]
  | cons c cs ih =>
    intro u hu
    unfold recorded at hu
    split at hu
    · have := ih _ u hu; omega
    · simp at hu
      rcases hu with rfl | hu
      · simp
      · have := ih _ u hu; omega

theorem recorded_stop_gt (c0 : Nat) (l : Text) : ∀ u ∈ recorded c0 l, c0 < u.stop := by
  induction l generalizing c0 with
  | nil => simp [recorded]
  | cons c cs ih =>
    intro u hu
    have hp := utf8Size_pos c
    unfold recorded at hu
    split at hu
    · have := ih _ u hu; omega
    · simp at hu
      rcases hu with rfl | hu
      · simp; omega
      · have := ih _ u hu; omega

theorem lenUtf16_eq (c : Char) (c0 : Nat) :
    Utf16Char.lenUtf16 ⟨c0, c0 + c.utf8Size⟩ = unit16 c := by
  unfold Utf16Char.lenUtf16 Utf16Char.len
  simp only [Nat.add_sub_cancel_left]
  by_cases h : c.utf8Size = 4
  · rw [if_pos h, (utf8Size_eq_four_iff c).1 h]
  · rw [if_neg h]
    have : unit16 c ≠ 2 := fun h' => h ((utf8Size_eq_four_iff c).2 h')
    unfold unit16 at *; split at this <;> simp_all <;> omega

theorem utf16Len_le_byteLen (a : Text) : utf16Len a ≤ byteLen a := by
  induction a with
  | nil => simp
  | cons c cs ih => have := unit16_le_utf8Size c; simp; omega

theorem toUtf16Loop_boundary (a b : Text) (c0 res : Nat) (h : byteLen a - utf16Len a ≤ res) :
    toUtf16Loop (c0 + byteLen a) (recorded c0 (a ++ b)) res
      = some (res - (byteLen a - utf16Len a)) := by
  induction a generalizing c0 res with
  | nil =>
    simp only [List.nil_append, byteLen_nil, Nat.add_zero, utf16Len_nil, Nat.sub_self, Nat.sub_zero]
    cases hr : recorded c0 b with
    | nil => simp [toUtf16Loop]
    | cons u us =>
      have := recorded_stop_gt c0 b u (by rw [hr]; simp)
      simp only [toUtf16Loop]
      rw [if_neg (by omega)]
  | cons c cs ih =>
    have h1 := unit16_le_utf8Size c
    have h2 := utf16Len_le_byteLen cs
    simp only [List.cons_append, recorded, byteLen_cons, utf16Len_cons] at *
    by_cases hc : c.val.toNat < 128
    · rw [if_pos hc]
      have e1 : c.utf8Size = 1 := (utf8Size_eq_one_iff c).2 hc
      have e2 := unit16_eq_one_of_ascii c hc
      have := ih (c0 + c.utf8Size) res (by omega)
      rw [show c0 + (c.utf8Size + byteLen cs) = c0 + c.utf8Size + byteLen cs by omega, this]
      congr 1; omega
    · rw [if_neg hc]
      simp only [toUtf16Loop]
      rw [if_pos (by omega)]
      have hl := lenUtf16_eq c c0
      have hlen : Utf16Char.len ⟨c0, c0 + c.utf8Size⟩ = c.utf8Size := by simp [Utf16Char.len]
      rw [hl, hlen, if_pos (by omega)]
      have := ih (c0 + c.utf8Size) (res - (c.utf8Size - unit16 c)) (by omega)
      rw [show c0 + (c.utf8Size + byteLen cs) = c0 + c.utf8Size + byteLen cs by omega, this]
      congr 1; omega

theorem toUtf16Loop_total (l : Text) (c0 col res : Nat) (h : col - c0 ≤ res) :
    ∃ r, toUtf16Loop col (recorded c0 l) res = some r := by
  induction l generalizing c0 res with
  | nil => exact ⟨res, rfl⟩
  | cons c cs ih =>
    unfold recorded
    split
    · exact ih _ _ (by omega)
    · simp only [toUtf16Loop]
      have hp := utf8Size_pos c
      have hu := unit16_pos c
      have hlen : Utf16Char.len ⟨c0, c0 + c.utf8Size⟩ = c.utf8Size := by simp [Utf16Char.len]
      have hl := lenUtf16_eq c c0
      rw [hl, hlen]
      split
      · rw [if_pos (by omega)]
        exact ih _ _ (by omega)
      · exact ⟨res, rfl⟩

theorem toUtf8Loop_boundary (a b : Text) (c0 : Nat) :
    toUtf8Loop (recorded c0 (a ++ b)) (c0 + utf16Len a) = c0 + byteLen a := by
  induction a generalizing c0 with
  | nil =>
    simp only [List.nil_append, utf16Len_nil, Nat.add_zero, byteLen_nil]
    cases hr : recorded c0 b with
    | nil => simp [toUtf8Loop]
    | cons u us =>
      have := recorded_start_ge c0 b u (by rw [hr]; simp)
      simp only [toUtf8Loop]
      rw [if_neg (by omega)]
  | cons c cs ih =>
    have h1 := unit16_le_utf8Size c
    have hu := unit16_pos c
    simp only [List.cons_append, recorded, byteLen_cons, utf16Len_cons] at *
    by_cases hc : c.val.toNat < 128
    · rw [if_pos hc]
      have e1 : c.utf8Size = 1 := (utf8Size_eq_one_iff c).2 hc
      have e2 := unit16_eq_one_of_ascii c hc
      have := ih (c0 + c.utf8Size)
      rw [show c0 + (unit16 c + utf16Len cs) = c0 + c.utf8Size + utf16Len cs by omega, this]
      omega
    · rw [if_neg hc]
      simp only [toUtf8Loop]
      rw [if_pos (by omega)]
      have hl := lenUtf16_eq c c0
      have hlen : Utf16Char.len ⟨c0, c0 + c.utf8Size⟩ = c.utf8Size := by simp [Utf16Char.len]
      rw [hl, hlen]
      have := ih (c0 + c.utf8Size)
      rw [show c0 + (unit16 c + utf16Len cs) + (c.utf8Size - unit16 c) = c0 + c.utf8Size + utf16Len cs by omega,
        this]
      omega

/-- Line/column of the end of a prefix. -/
theorem lineCol_prefix (p q : Text) :
    (new (p ++ q)).lineCol (byteLen p) = some ⟨newlineCount p, byteLen (lastLine p)⟩ := by
  have hnl := new_newlines p q
  have hlen := after_newlines_length p
  have hlast := after_newlines_last p
  have hle := byteLen_lastLine_le p
  have hpp : partitionPoint (fun it => it ≤ byteLen p) (new (p ++ q)).newlines = newlineCount p + 1 := by
    unfold partitionPoint
    rw [hnl, takeWhile_append_stop]
    · exact hlen
    · intro x hx; simpa using after_newlines_le p x hx
    · intro x hx; have := starts_gt _ _ x hx; simp; omega
  unfold LineIndex.lineCol
  rw [hpp]
  have hget : (new (p ++ q)).newlines[newlineCount p]? = some (byteLen p - byteLen (lastLine p)) := by
    rw [hnl, List.getElem?_append_left (by omega)]; exact hlast
  simp only [hget]
  rw [if_pos (by omega)]
  congr 2; omega

theorem offset_prefix (p q : Text) :
    (new (p ++ q)).offset ⟨newlineCount p, byteLen (lastLine p)⟩ = some (byteLen p) := by
  have hlen := after_newlines_length p
  have hle := byteLen_lastLine_le p
  have hget : (new (p ++ q)).newlines[newlineCount p]? = some (byteLen p - byteLen (lastLine p)) := by
    rw [new_newlines p q, List.getElem?_append_left (by omega)]; exact after_newlines_last p
  unfold LineIndex.offset
  simp only [hget]
  congr 1; omega

/-- Membership in the line starts of a text. -/
theorem mem_starts_iff (row : Nat) (t : Text) (n : Nat) :
    n ∈ starts row t ↔ ∃ p q, t = p ++ '\n' :: q ∧ n = row + byteLen p + 1 := by
  induction t generalizing row with
  | nil => simp [starts]
  | cons c cs ih =>
    have hnl : Char.utf8Size '\n' = 1 := by decide
    unfold starts
    constructor
    · intro h
      by_cases hc : c = '\n'
      · rw [if_pos hc] at h
        simp only [List.mem_cons] at h
        rcases h with h | h
        · exact ⟨[], cs, by simp [hc], by subst hc; simp [h, hnl]⟩
        · obtain ⟨p, q, hp, hn⟩ := (ih _).1 h
          exact ⟨c :: p, q, by simp [hp], by simp; omega⟩
      · rw [if_neg hc] at h
        obtain ⟨p, q, hp, hn⟩ := (ih _).1 h
        exact ⟨c :: p, q, by simp [hp], by simp; omega⟩
    · rintro ⟨p, q, hp, hn⟩
      cases p with
      | nil =>
        simp at hp
        obtain ⟨rfl, rfl⟩ := hp
        simp [hnl] at hn ⊢
        omega
      | cons d ds =>
        simp at hp
        obtain ⟨rfl, hp⟩ := hp
        have : n ∈ starts (row + c.utf8Size) cs := (ih _).2 ⟨ds, q, hp, by simp at hn; omega⟩
        split <;> simp [this]

theorem new_newlines_length (t : Text) : (new t).newlines.length = newlineCount t + 1 := by
  have h1 := new_newlines t []
  simp only [List.append_nil, starts] at h1
  rw [h1]; exact after_newlines_length t

theorem exists_prefix_of_line (t : Text) (n : Nat) (h : n ≤ newlineCount t) :
    ∃ p q, t = p ++ q ∧ newlineCount p = n := by
  induction t using snoc_induction generalizing n with
  | h0 => exact ⟨[], [], rfl, by simp at h ⊢; omega⟩
  | h1 p c ih =>
    rw [newlineCount_concat] at h
    by_cases hle : n ≤ newlineCount p
    · obtain ⟨a, b, hab, hc⟩ := ih n hle
      exact ⟨a, b ++ [c], by rw [hab]; simp, hc⟩
    · refine ⟨p ++ [c], [], by simp, ?_⟩
      rw [newlineCount_concat]
      split at h <;> simp_all <;> omega

/-! ### `lines` -/

/-- Consecutive pairs of a sorted list become valid ranges. -/
theorem mapM_mkRange_sorted (a : Nat) (l : List Nat) (h : (a :: l).Pairwise (· ≤ ·)) :
    (((a :: l).zip l).mapM (fun x => mkRange x.1 x.2)) = some ((a :: l).zip l) := by
  induction l generalizing a with
  | nil => simp
  | cons b bs ih =>
    have hab : a ≤ b := by
      have := List.rel_of_pairwise_cons h (a' := b) (by simp); exact this
    have := ih b (List.Pairwise.of_cons h)
    simp [List.mapM_cons, mkRange, hab] at this ⊢
    simp [this]

theorem drop_takeWhile_ge {l : List Nat} (hs : l.Pairwise (· < ·)) (a : Nat) :
    ∀ x ∈ l.drop (l.takeWhile (fun it => decide (it < a))).length, a ≤ x := by
  induction l with
  | nil => simp
  | cons y ys ih =>
    simp only [List.takeWhile_cons]
    split
    · simpa using ih (List.Pairwise.of_cons hs)
    · rename_i h
      intro x hx
      simp at hx h
      rcases hx with rfl | hx
      · exact h
      · have := List.rel_of_pairwise_cons hs hx; omega

theorem mem_drop_takeWhile {l : List Nat} (a x : Nat) (hx : x ∈ l) (h : a ≤ x) :
    x ∈ l.drop (l.takeWhile (fun it => decide (it < a))).length := by
  induction l with
  | nil => simp at hx
  | cons y ys ih =>
    simp only [List.takeWhile_cons]
    split
    · rename_i hy
      simp at hx hy ⊢
      rcases hx with rfl | hx
      · omega
      · exact ih hx
    · simpa using hx

theorem mem_takeWhile_le {l : List Nat} (hs : l.Pairwise (· < ·)) (b x : Nat) (hx : x ∈ l) (h : x ≤ b) :
    x ∈ l.takeWhile (fun it => decide (it ≤ b)) := by
  induction l with
  | nil => simp at hx
  | cons y ys ih =>
    simp at hx
    have hy : y ≤ b := by
      rcases hx with rfl | hx
      · exact h
      · have := List.rel_of_pairwise_cons hs hx; omega
    simp only [List.takeWhile_cons, hy, decide_true, if_true]
    rcases hx with rfl | hx
    · simp
    · simp [ih (List.Pairwise.of_cons hs) hx]

theorem takeWhile_lt_takeWhile_le {l : List Nat} (a b : Nat) (h : a ≤ b) :
    (l.takeWhile (fun it => decide (it ≤ b))).takeWhile (fun it => decide (it < a))
      = l.takeWhile (fun it => decide (it < a)) := by
  induction l with
  | nil => simp
  | cons y ys ih =>
    simp only [List.takeWhile_cons]
    by_cases hy : y < a
    · have : y ≤ b := by omega
      simp [hy, this, ih]
    · simp only [hy, decide_false]
      split <;> simp [hy]

theorem takeWhile_mem_le {l : List Nat} (b x : Nat) (hx : x ∈ l.takeWhile (fun it => decide (it ≤ b))) :
    x ≤ b := by
  induction l with
  | nil => simp at hx
  | cons y ys ih =>
    simp only [List.takeWhile_cons] at hx
    split at hx
    · rename_i hy
      simp at hx hy
      rcases hx with rfl | hx
      · exact hy
      · exact ih hx
    · simp at hx

theorem tiles_of_sorted (a : Nat) (l : List Nat) (e : Nat) (h : (a :: (l ++ [e])).Pairwise (· ≤ ·)) :
    Tiles a e (((a :: (l ++ [e])).zip (l ++ [e])).filter (fun r => r.1 != r.2)) := by
  induction l generalizing a with
  | nil =>
    have hae : a ≤ e := by simpa using h
    simp only [List.nil_append, List.zip_cons_cons, List.zip_nil_right, List.filter_cons, List.filter_nil]
    split
    · rename_i hne
      simp at hne
      simp [Tiles]; omega
    · rename_i hne
      simp at hne
      simp [Tiles, hne]
  | cons b bs ih =>
    have hab : a ≤ b := List.rel_of_pairwise_cons h (a' := b) (by simp)
    have hrec := ih b (by simpa using List.Pairwise.of_cons h)
    simp only [List.cons_append, List.zip_cons_cons, List.filter_cons] at hrec ⊢
    split
    · rename_i hne
      simp at hne
      exact ⟨rfl, by simp; omega, by simpa using hrec⟩
    · rename_i hne
      simp at hne
      subst hne
      exact hrec

theorem piece_no_inner (a : Nat) (l : List Nat) (e : Nat) (h : (a :: (l ++ [e])).Pairwise (· ≤ ·))
    (r : Nat × Nat) (hr : r ∈ (a :: (l ++ [e])).zip (l ++ [e])) (x : Nat) (hx : x ∈ l) :
    ¬ (r.1 < x ∧ x < r.2) := by
  induction l generalizing a with
  | nil => simp at hx
  | cons b bs ih =>
    have h' : (b :: (bs ++ [e])).Pairwise (· ≤ ·) := by simpa using List.Pairwise.of_cons h
    simp only [List.cons_append, List.zip_cons_cons, List.mem_cons] at hr
    rcases hr with rfl | hr
    · rintro ⟨h1, h2⟩
      simp at hx h1 h2
      rcases hx with rfl | hx
      · omega
      · have := List.rel_of_pairwise_cons h' (a' := x) (by simp [hx]); omega
    · simp at hx
      rcases hx with rfl | hx
      · rintro ⟨h1, h2⟩
        have hm : r.1 ∈ x :: (bs ++ [e]) := (List.of_mem_zip hr).1
        simp only [List.mem_cons] at hm
        rcases hm with hm | hm
        · omega
        · have := List.rel_of_pairwise_cons h' hm; omega
      · exact ih b h' hr hx

/-- What `lines` computes on the index of a text. -/
theorem lines_eq (t : Text) (start stop : Nat) (hle : start ≤ stop) :
    ∃ mid, (∀ x, x ∈ mid ↔ (x ∈ (new t).newlines ∧ start ≤ x ∧ x ≤ stop)) ∧
      (start :: (mid ++ [stop])).Pairwise (· ≤ ·) ∧
      (new t).lines start stop
        = some (((start :: (mid ++ [stop])).zip (mid ++ [stop])).filter (fun r => r.1 != r.2)) := by
  have hs := new_sorted t
  let l := (new t).newlines
  let l' := l.takeWhile (fun it => decide (it ≤ stop))
  have hsub : l'.Sublist l := List.takeWhile_sublist _
  have hs' : l'.Pairwise (· < ·) := hs.sublist hsub
  have hlo : partitionPoint (fun it => it < start) l = (l'.takeWhile (fun it => decide (it < start))).length := by
    simp only [l', takeWhile_lt_takeWhile_le start stop hle]; rfl
  have hhi : partitionPoint (fun it => it ≤ stop) l = l'.length := rfl
  have htake : l.take l'.length = l' := (takeWhile_eq_take l).symm
  let mid := l'.drop (l'.takeWhile (fun it => decide (it < start))).length
  have hmem : ∀ x, x ∈ mid ↔ (x ∈ l ∧ start ≤ x ∧ x ≤ stop) := by
    intro x
    constructor
    · intro hx
      have h1 : x ∈ l' := List.mem_of_mem_drop hx
      exact ⟨hsub.subset h1, drop_takeWhile_ge hs' _ x hx, takeWhile_mem_le _ x h1⟩
    · rintro ⟨h1, h2, h3⟩
      exact mem_drop_takeWhile _ _ (mem_takeWhile_le hs _ _ h1 h3) h2
  have hsorted : (start :: (mid ++ [stop])).Pairwise (· ≤ ·) := by
    refine List.Pairwise.cons ?_ ?_
    · intro x hx
      simp at hx
      rcases hx with hx | rfl
      · exact ((hmem x).1 hx).2.1
      · exact hle
    · rw [List.pairwise_append]
      refine ⟨?_, by simp, ?_⟩
      · have : mid.Pairwise (· < ·) := hs'.sublist (List.drop_sublist _ _)
        exact this.imp (by intro a b h; omega)
      · intro x hx y hy
        simp at hy; subst hy
        exact ((hmem x).1 hx).2.2
  refine ⟨mid, hmem, hsorted, ?_⟩
  unfold LineIndex.lines
  have hl : (new t).newlines = l := rfl
  simp only [hl, hlo, hhi, htake, if_pos (takeWhile_length_le _)]
  have hm := mapM_mkRange_sorted start (mid ++ [stop]) hsorted
  simp only [List.singleton_append, List.cons_append, List.tail_cons, List.nil_append]
  have e : l'.drop (l'.takeWhile (fun it => decide (it < start))).length = mid := rfl
  rw [e, hm]

end Verif.LineIndex
