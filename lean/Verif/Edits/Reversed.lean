import Verif.Edits.Exact

/-!
Ranges that end on an earlier line than they start on (C77): in whatever place of a notification they come, they end
the server if they end within a line.
-/

set_option autoImplicit false

namespace Verif.Edits

open Verif.LineIndex

/-! ## Specification -/

namespace Spec

/-- The position is on a line of the text and not behind the end of this line. -/
def WithinLine (t : Text) (pos : Nat × Nat) : Prop :=
  ∃ before line rest, t = before ++ (line ++ rest) ∧ newlineCount before = pos.1 ∧ lastLine before = [] ∧
    '\n' ∉ line ∧ LineEnds rest ∧ pos.2 ≤ utf16Len line

end Spec

/-! ## The table in use -/

/-- The line table is that of a text which begins like the current one, up to the line the table is good for. -/
def TableOf (index : LineIndex) (valid : IndexValid) (text : Text) : Prop :=
  ∃ old, index = new old ∧
    ((valid = .all ∧ old = text) ∨
      ∃ pa r r' n, valid = .upToLineExclusive n ∧ old = pa ++ r ∧ text = pa ++ r' ∧ newlineCount pa = n)

theorem fewer_newlines {a b c d : Text} (h : a ++ b = c ++ d) (hn : newlineCount a < newlineCount c) :
    byteLen a < byteLen c := by
  rcases Nat.lt_or_ge (byteLen a) (byteLen c) with hl | hl
  · exact hl
  · obtain ⟨r, rfl, _⟩ := prefix_split h.symm hl
    simp only [newlineCount, List.count_append] at hn
    omega

/-- The table used for a range. -/
theorem table_used {s : EditState} (h : TableOf s.index s.valid s.text) (line : Nat) :
    ∃ old, (if s.valid.covers line then s.index else new s.text) = new old ∧
      (old = s.text ∨ ∃ pa r r', old = pa ++ r ∧ s.text = pa ++ r' ∧ line < newlineCount pa) := by
  obtain ⟨old, he, h⟩ := h
  split
  · next hc =>
    refine ⟨old, he, ?_⟩
    rcases h with ⟨_, rfl⟩ | ⟨pa, r, r', n, hv, h1, h2, h3⟩
    · exact .inl rfl
    · right
      rw [hv] at hc
      simp only [IndexValid.covers, gt_iff_lt, decide_eq_true_eq] at hc
      exact ⟨pa, r, r', h1, h2, by omega⟩
  · exact ⟨s.text, rfl, .inl rfl⟩

theorem editStep_table (s s' : EditState) (change : Change) (h : TableOf s.index s.valid s.text)
    (hwf : ∀ r, change.range = some r → r.start.line ≤ r.stop.line) (hs : editStep s change = some s') :
    TableOf s'.index s'.valid s'.text := by
  unfold editStep at hs
  cases hr : change.range with
  | none =>
    rw [hr] at hs
    simp only [Option.some.injEq] at hs
    subst hs
    obtain ⟨old, he, _⟩ := h
    exact ⟨old, he, .inr ⟨[], old, change.text, 0, rfl, rfl, rfl, rfl⟩⟩
  | some range =>
    have hle := hwf range hr
    rw [hr] at hs
    simp only at hs
    obtain ⟨old, he, hold⟩ := table_used h range.stop.line
    rw [he] at hs
    cases htr : textRange (new old) .utf16 range with
    | none => rw [htr] at hs; cases hs
    | some ab =>
      obtain ⟨a, b⟩ := ab
      rw [htr] at hs
      simp only at hs
      cases hrep : replaceRange s.text a b change.text with
      | none => rw [hrep] at hs; cases hs
      | some t' =>
        rw [hrep] at hs
        simp only [Option.some.injEq] at hs
        subst hs
        have hoff : offset (new old) .utf16 range.start = some a := by
          unfold textRange at htr
          split at htr
          · rename_i x y hx hy
            unfold mkRange at htr
            split at htr
            · simp only [Option.some.injEq, Prod.mk.injEq] at htr; rw [hx, htr.1]
            · cases htr
          · cases htr
        obtain ⟨st, hst⟩ := offset_line_exists hoff
        have hge := offset_ge_line hoff hst
        obtain ⟨p1, q1, hsplit, hcount, hbl⟩ := newlines_split hst
        have htext : ∃ q2, s.text = p1 ++ q2 := by
          rcases hold with rfl | ⟨pa, r, r', h1, h2, h3⟩
          · exact ⟨q1, hsplit⟩
          · have hlt := fewer_newlines (hsplit.symm.trans h1) (by omega)
            obtain ⟨x, hx, _⟩ := prefix_split (hsplit.symm.trans h1) (by omega)
            exact ⟨x ++ r', by rw [h2, hx, List.append_assoc]⟩
        obtain ⟨q2, hq2⟩ := htext
        unfold replaceRange at hrep
        split at hrep
        · rename_i p q0 p0 q hs1 hs2
          simp only [Option.some.injEq] at hrep
          obtain ⟨e1, e2⟩ := splitAtByte_some hs1
          obtain ⟨r, hr1, _⟩ := prefix_split (hq2.symm.trans e1) (by omega)
          exact ⟨old, rfl, .inr ⟨p1, q1, r ++ (change.text ++ q), range.start.line, rfl, hsplit,
            by rw [← hrep, hr1]; simp, hcount⟩⟩
        · cases hrep

theorem foldlM_table (changes : List Change) (s s' : EditState) (h : TableOf s.index s.valid s.text)
    (hwf : ∀ c ∈ changes, ∀ r, c.range = some r → r.start.line ≤ r.stop.line)
    (hs : changes.foldlM editStep s = some s') : TableOf s'.index s'.valid s'.text := by
  induction changes generalizing s with
  | nil => simp only [List.foldlM_nil] at hs; cases hs; exact h
  | cons c cs ih =>
    simp only [List.foldlM_cons] at hs
    cases hc : editStep s c with
    | none => rw [hc] at hs; cases hs
    | some u =>
      rw [hc] at hs
      exact ih u (editStep_table s u c h (hwf c (by simp)) hc) (fun c hc => hwf c (by simp [hc])) hs

/-- A position within a line leads to a byte of that line, or to its end. -/
theorem offset_within (before line rest : Text) (col : Nat) (h2 : lastLine before = []) (h3 : '\n' ∉ line)
    (hc : col ≤ utf16Len line) :
    ∃ off, offset (new (before ++ (line ++ rest))) .utf16 ⟨newlineCount before, col⟩ = some off ∧
      off ≤ byteLen (before ++ line) := by
  have hpre : ∀ a, '\n' ∉ a → newlineCount (before ++ a) = newlineCount before ∧ lastLine (before ++ a) = a :=
    fun a ha => ⟨newlineCount_append _ _ ha, by rw [lastLine_append _ _ ha, h2]; rfl⟩
  by_cases hlt : col < utf16Len line
  · obtain ⟨a, ch, b, rfl, h5⟩ := column_of line col hlt
    have ha : '\n' ∉ a := fun hm => h3 (by simp [hm])
    obtain ⟨k1, k2⟩ := hpre a ha
    rcases h5 with h5 | ⟨h5, h6⟩
    · have ho := offset_past' (before ++ a) (ch :: b ++ rest)
      rw [k1, k2] at ho
      refine ⟨_, by rw [h5]; simpa using ho, ?_⟩
      simp
    · have ho := offset_middle (before ++ a) ch (b ++ rest) h6
      rw [k1, k2] at ho
      have h4' : ch.utf8Size = 4 := (utf8Size_eq_four_iff ch).2 h6
      refine ⟨_, by rw [h5]; simpa using ho, ?_⟩
      simp only [byteLen_append, byteLen_cons]
      omega
  · have : col = utf16Len line := by omega
    obtain ⟨k1, k2⟩ := hpre line h3
    have ho := offset_past' (before ++ line) rest
    rw [k1, k2] at ho
    exact ⟨_, by rw [this]; simpa using ho, Nat.le_refl _⟩

/-- With any table that may be in use. -/
theorem reversed_step_crashes (s : EditState) (h : TableOf s.index s.valid s.text) (a b : Nat × Nat) (x : Text)
    (hlt : b.1 < a.1) (hb : Spec.WithinLine s.text b) : editStep s (toChange (.ranged a b x)) = none := by
  obtain ⟨old, he, hold⟩ := table_used h b.1
  obtain ⟨before, line, rest, ht, h1, h2, h3, h4, h5⟩ := hb
  -- the table is right for the line the range ends on, and a later line starts behind it
  have hline : ∃ rest', old = before ++ (line ++ rest') ∧ Spec.LineEnds rest' := by
    rcases hold with rfl | ⟨pa, r, r', e1, e2, e3⟩
    · exact ⟨rest, ht, h4⟩
    · have hcount : newlineCount (before ++ line) < newlineCount pa := by
        rw [newlineCount_append _ _ h3, h1]; exact e3
      have hsp : (before ++ line) ++ rest = pa ++ r' := by rw [List.append_assoc, ← ht, e2]
      have hl := fewer_newlines hsp hcount
      obtain ⟨y, hy, hy2⟩ := prefix_split hsp (by omega)
      refine ⟨y ++ r, by rw [e1, hy]; simp, ?_⟩
      rcases h4 with rfl | ⟨rest2, rfl⟩
      · have : y = [] := (List.append_eq_nil_iff.1 hy2.symm).1
        subst this
        rw [hy, List.append_nil] at hl; omega
      · cases y with
        | nil => rw [hy, List.append_nil] at hl; omega
        | cons d y =>
          simp only [List.cons_append, List.cons.injEq] at hy2
          exact .inr ⟨y ++ r, by rw [← hy2.1]; rfl⟩
  obtain ⟨rest', hold', _⟩ := hline
  obtain ⟨off, ho, hoff⟩ := offset_within before line rest' b.2 h2 h3 h5
  rw [← hold', h1] at ho
  unfold editStep
  simp only [toChange]
  rw [he]
  have : textRange (new old) .utf16 ⟨⟨a.1, a.2⟩, ⟨b.1, b.2⟩⟩ = none := by
    unfold textRange
    simp only [ho]
    cases hs : offset (new old) .utf16 ⟨a.1, a.2⟩ with
    | none => rfl
    | some u =>
      simp only
      obtain ⟨st, hst⟩ := offset_line_exists hs
      have hge := offset_ge_line hs hst
      obtain ⟨p1, q1, hsplit, hcount, hbl⟩ := newlines_split hst
      have hsp : (before ++ line) ++ rest' = p1 ++ q1 := by rw [List.append_assoc, ← hold', hsplit]
      have hl := fewer_newlines hsp (by rw [newlineCount_append _ _ h3, h1, hcount]; exact hlt)
      unfold mkRange
      rw [if_neg (by omega)]
  rw [this]

/-- **C77**, ranges that end on an earlier line than they start on: if the end is within its line, the server ends,
whatever changes come before it in the notification and whatever comes after it. -/
theorem reversed_range_crashes (t u : Text) (pre post : List Spec.Edit)
    (hwf : ∀ a b x, Spec.Edit.ranged a b x ∈ pre → a.1 ≤ b.1) (hd : Spec.Does t pre u) (a b : Nat × Nat) (x : Text)
    (hlt : b.1 < a.1) (hb : Spec.WithinLine u b) :
    applyDocumentChanges t ((pre ++ .ranged a b x :: post).map toChange) = none := by
  have hpre := (changes_exactly t u pre hwf).2 hd
  rw [apply_eq_map] at hpre ⊢
  rw [List.map_append, List.map_cons, List.foldlM_append]
  cases hf : (pre.map toChange).foldlM editStep { text := t, index := new t, valid := .all } with
  | none => rfl
  | some s =>
    rw [hf] at hpre
    simp only [Option.map_some, Option.some.injEq] at hpre
    have htab := foldlM_table (pre.map toChange) _ s ⟨t, rfl, .inl ⟨rfl, rfl⟩⟩ (by
      intro c hc r hr
      obtain ⟨e, he, rfl⟩ := List.mem_map.1 hc
      cases e with
      | full y => cases hr
      | ranged a b y => cases hr; exact hwf a b y he) hf
    have := reversed_step_crashes s htab a b x hlt (by rw [hpre]; exact hb)
    show Option.map _ (List.foldlM editStep s (toChange (.ranged a b x) :: post.map toChange)) = none
    simp only [List.foldlM_cons]
    rw [this]
    rfl

/-- A notification with a change before the reversed one, which is read with the old table: line 2 of it starts at 4,
of the changed text at 6. -/
example : Spec.Does ['a', '\n', 'b', '\n', 'c'] [.ranged (1, 0) (1, 0) ['X', 'X']]
      ['a', '\n', 'X', 'X', 'b', '\n', 'c'] ∧ Spec.WithinLine ['a', '\n', 'X', 'X', 'b', '\n', 'c'] (0, 1) ∧
    applyDocumentChanges ['a', '\n', 'b', '\n', 'c']
      ([Spec.Edit.ranged (1, 0) (1, 0) ['X', 'X'], .ranged (2, 0) (0, 1) ['!'], .full []].map toChange) = none := by
  refine ⟨?_, ⟨[], ['a'], ['\n', 'X', 'X', 'b', '\n', 'c'], rfl, rfl, rfl, by decide, .inr ⟨_, rfl⟩, by decide⟩, by decide⟩
  exact Spec.Does.ranged (p := ['a', '\n']) (m := []) (q := ['b', '\n', 'c']) (.inl rfl) (.inl rfl) (.nil _)

end Verif.Edits
