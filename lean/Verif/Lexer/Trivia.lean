import Verif.Lexer.Props

set_option autoImplicit false

/-!
C39 (comments and whitespace are trivia) and C54 (number literals).
-/

namespace Verif.Lexer

theorem isWs_iff (c : Char) : isWs c = true ↔ Space c := by
  unfold isWs Space
  simp only [Bool.or_eq_true, beq_iff_eq]
  constructor
  · rintro ((h | h) | h)
    · exact .inl h
    · exact .inr (.inl h)
    · exact .inr (.inr h)
  · rintro (h | h | h)
    · exact .inl (.inl h)
    · exact .inl (.inr h)
    · exact .inr h

theorem wsRun_run {w rest : Text} (hw : ∀ c ∈ w, isWs c = true)
    (hr : ∀ c, rest.head? = some c → isWs c = false) : wsRun (w ++ rest) = byteLen w := by
  induction w with
  | nil =>
    cases rest with
    | nil => rfl
    | cons c cs => simp [wsRun, hr c rfl]
  | cons c cs ih =>
    have hc := hw c (List.mem_cons_self ..)
    simp only [List.cons_append, wsRun, hc, if_true, byteLen_cons]
    rw [ih (fun x hx => hw x (List.mem_cons_of_mem _ hx)), isWs_ascii hc]
    omega

/-- **C39.**  A maximal run of whitespace is one whitespace token. -/
theorem whitespace_token {c : Char} {w rest : Text} (hw : ∀ x ∈ c :: w, Space x)
    (hr : ∀ x, rest.head? = some x → ¬ Space x) :
    findToken (c :: w ++ rest) = some (.WHITESPACE, byteLen (c :: w)) := by
  have hw' : ∀ x ∈ c :: w, isWs x = true := fun x hx => (isWs_iff x).2 (hw x hx)
  have hr' : ∀ x, rest.head? = some x → isWs x = false := by
    intro x hx
    cases h : isWs x with
    | false => rfl
    | true => exact absurd ((isWs_iff x).1 h) (hr x hx)
  have hrun := wsRun_run hw' hr'
  show findToken (c :: (w ++ rest)) = _
  unfold findToken
  simp only
  rw [if_pos (hw' c (List.mem_cons_self ..))]
  rw [← hrun]
  rfl

theorem newlinePos_append {body rest : Text} (h : '\n' ∉ body) :
    newlinePos (body ++ '\n' :: rest) = some (byteLen body) := by
  induction body with
  | nil => rfl
  | cons c cs ih =>
    simp only [List.cons_append, newlinePos]
    have hc : (c == '\n') = false := by
      rw [beq_eq_false_iff_ne]
      rintro rfl
      exact h (List.mem_cons_self ..)
    rw [hc]
    simp only [Bool.false_eq_true, if_false]
    rw [ih (fun hm => h (List.mem_cons_of_mem _ hm))]
    simp [Nat.add_comm]

theorem newlinePos_none {body : Text} (h : '\n' ∉ body) : newlinePos body = none := by
  induction body with
  | nil => rfl
  | cons c cs ih =>
    have hc : (c == '\n') = false := by
      rw [beq_eq_false_iff_ne]
      rintro rfl
      exact h (List.mem_cons_self ..)
    simp only [newlinePos, hc, Bool.false_eq_true, if_false,
      ih (fun hm => h (List.mem_cons_of_mem _ hm)), Option.map_none]

theorem findToken_slashes (t : Text) : findToken ('/' :: '/' :: t)
    = match newlinePos ('/' :: '/' :: t) with
      | some pos => some (.COMMENT, pos + 1)
      | none => some (.COMMENT, byteLen ('/' :: '/' :: t)) := by
  conv => lhs; unfold findToken
  simp only
  rw [if_neg (by decide), if_pos (by simp [startsWith])]
  rfl

/-- **C39.**  A line comment, with its newline, is one comment token. -/
theorem comment_token {body rest : Text} (h : '\n' ∉ body) :
    findToken ('/' :: '/' :: (body ++ '\n' :: rest))
      = some (.COMMENT, byteLen ('/' :: '/' :: (body ++ ['\n']))) := by
  rw [findToken_slashes]
  have : newlinePos ('/' :: '/' :: (body ++ '\n' :: rest)) = some (byteLen ('/' :: '/' :: body)) := by
    have hb : '\n' ∉ '/' :: '/' :: body := by simpa using h
    exact newlinePos_append hb
  rw [this]
  simp only [byteLen_cons, byteLen_append, byteLen_nil]
  congr 2

/-- **C39.**  A line comment at the end of the text is one comment token. -/
theorem comment_token_at_end {body : Text} (h : '\n' ∉ body) :
    findToken ('/' :: '/' :: body) = some (.COMMENT, byteLen ('/' :: '/' :: body)) := by
  rw [findToken_slashes, newlinePos_none (by simpa using h)]

/-! Trivia in front of a text does not change the significant tokens. -/

theorem significant_append (xs ys : List (Kind × Text)) :
    significant (xs ++ ys) = significant xs ++ significant ys := by
  unfold significant; exact List.filter_append ..

/-- The tokens of a text that starts with whitespace: one whitespace token and the rest. -/
theorem lexes_space {c : Char} {b : Text} {ts : List (Kind × Text)} (hc : Space c)
    (h : Lexes b ts) : ∃ ts', Lexes (c :: b) ts' ∧ significant ts' = significant ts := by
  have hsplit : b = b.takeWhile isWs ++ b.dropWhile isWs := (List.takeWhile_append_dropWhile).symm
  have hall : ∀ x ∈ b.takeWhile isWs, isWs x = true := by
    have := List.all_takeWhile (p := isWs) (l := b)
    rw [List.all_eq_true] at this
    exact this
  have hhead : ∀ x, (b.dropWhile isWs).head? = some x → isWs x = false := by
    intro x hx
    have := List.head?_dropWhile_not isWs b
    rw [hx] at this
    exact this
  -- the tokens after the whitespace run of `b`
  have hrest : ∃ ts1, Lexes (b.dropWhile isWs) ts1 ∧ significant ts1 = significant ts := by
    cases hw : b.takeWhile isWs with
    | nil =>
      rw [hw, List.nil_append] at hsplit
      rw [← hsplit]
      exact ⟨ts, h, rfl⟩
    | cons d w =>
      have htok : findToken b = some (.WHITESPACE, byteLen (d :: w)) := by
        rw [hsplit, hw]
        apply whitespace_token
        · intro x hx; rw [← hw] at hx; exact (isWs_iff x).1 (hall x hx)
        · intro x hx hs; have := hhead x hx; rw [(isWs_iff x).2 hs] at this; cases this
      have hstep : Steps b [(.WHITESPACE, d :: w)] (b.dropWhile isWs) := by
        have hb : b = (d :: w) ++ b.dropWhile isWs := by rw [← hw]; exact hsplit
        rw [hb] at htok
        have := Steps.cons (by simp) htok (.nil (b.dropWhile isWs))
        rwa [← hb] at this
      obtain ⟨ys, h1, h2⟩ := hstep.lexes_rest h
      exact ⟨ys, h2, by rw [h1, significant_append]; rfl⟩
  obtain ⟨ts1, h1, h2⟩ := hrest
  refine ⟨(.WHITESPACE, c :: b.takeWhile isWs) :: ts1, ?_, by rw [← h2]; rfl⟩
  have hb : c :: b = (c :: b.takeWhile isWs) ++ b.dropWhile isWs := by
    rw [List.cons_append, ← hsplit]
  rw [hb]
  refine .cons (by simp) ?_ h1
  apply whitespace_token
  · intro x hx
    rw [List.mem_cons] at hx
    rcases hx with rfl | hx
    · exact hc
    · exact (isWs_iff x).1 (hall x hx)
  · intro x hx hs; have := hhead x hx; rw [(isWs_iff x).2 hs] at this; cases this

theorem lexes_comment {body b : Text} {ts : List (Kind × Text)} (hb : '\n' ∉ body)
    (h : Lexes b ts) :
    ∃ ts', Lexes ('/' :: '/' :: (body ++ '\n' :: b)) ts' ∧ significant ts' = significant ts := by
  refine ⟨(.COMMENT, '/' :: '/' :: (body ++ ['\n'])) :: ts, ?_, rfl⟩
  have := Steps.cons (u := '/' :: '/' :: (body ++ ['\n'])) (r := b) (k := .COMMENT) (by simp)
    (by
      have := comment_token (body := body) (rest := b) hb
      simpa using this) h
  show Steps _ _ _
  simpa using this

theorem lexes_trivia {w b : Text} {ts : List (Kind × Text)} (hw : Trivia w) (h : Lexes b ts) :
    ∃ ts', Lexes (w ++ b) ts' ∧ significant ts' = significant ts := by
  induction hw with
  | nil => exact ⟨ts, h, rfl⟩
  | space hc _ ih =>
    obtain ⟨ts1, h1, h2⟩ := ih
    obtain ⟨ts2, h3, h4⟩ := lexes_space hc h1
    exact ⟨ts2, h3, h4.trans h2⟩
  | @comment body w hb _ ih =>
    obtain ⟨ts1, h1, h2⟩ := ih
    obtain ⟨ts2, h3, h4⟩ := lexes_comment hb h1
    exact ⟨ts2, by simpa using h3, h4.trans h2⟩

/-- Conversely the text after trivia splits into tokens when the whole does. -/
theorem lexes_of_trivia {w b : Text} {ts : List (Kind × Text)} (hw : Trivia w)
    (h : Lexes (w ++ b) ts) : ∃ ts', Lexes b ts' := by
  induction hw generalizing ts with
  | nil => exact ⟨ts, h⟩
  | @space c w hc _ ih =>
    -- remove one whitespace character
    have hsplit : w ++ b = (w ++ b).takeWhile isWs ++ (w ++ b).dropWhile isWs :=
      (List.takeWhile_append_dropWhile).symm
    have hall : ∀ x ∈ (w ++ b).takeWhile isWs, isWs x = true := by
      have := List.all_takeWhile (p := isWs) (l := w ++ b)
      rw [List.all_eq_true] at this
      exact this
    have hhead : ∀ x, ((w ++ b).dropWhile isWs).head? = some x → ¬ Space x := by
      intro x hx hs
      have := List.head?_dropWhile_not isWs (w ++ b)
      rw [hx] at this
      simp only [(isWs_iff x).2 hs] at this
      cases this
    have hstep : Steps (c :: (w ++ b)) [(.WHITESPACE, c :: (w ++ b).takeWhile isWs)]
        ((w ++ b).dropWhile isWs) := by
      have hb : c :: (w ++ b) = (c :: (w ++ b).takeWhile isWs) ++ (w ++ b).dropWhile isWs := by
        rw [List.cons_append, ← hsplit]
      have := Steps.cons (u := c :: (w ++ b).takeWhile isWs) (by simp)
        (whitespace_token (rest := (w ++ b).dropWhile isWs) (by
          intro x hx
          rw [List.mem_cons] at hx
          rcases hx with rfl | hx
          · exact hc
          · exact (isWs_iff x).1 (hall x hx)) hhead) (.nil _)
      rwa [← hb] at this
    obtain ⟨ys, _, h2⟩ := hstep.lexes_rest (by simpa using h)
    cases hw : (w ++ b).takeWhile isWs with
    | nil =>
      rw [hw, List.nil_append] at hsplit
      rw [← hsplit] at h2
      exact ih h2
    | cons d v =>
      have h3 : Lexes (w ++ b) ((.WHITESPACE, d :: v) :: ys) := by
        rw [hsplit, hw]
        refine .cons (by simp) ?_ h2
        apply whitespace_token
        · intro x hx; rw [← hw] at hx; exact (isWs_iff x).1 (hall x hx)
        · exact hhead
      exact ih h3
  | @comment body w hb _ ih =>
    have hstep : Steps ('/' :: '/' :: (body ++ '\n' :: (w ++ b)))
        [(.COMMENT, '/' :: '/' :: (body ++ ['\n']))] (w ++ b) := by
      have := Steps.cons (u := '/' :: '/' :: (body ++ ['\n'])) (r := w ++ b) (k := .COMMENT)
        (by simp) (by
          have := comment_token (body := body) (rest := w ++ b) hb
          simpa using this) (.nil _)
      simpa using this
    obtain ⟨ys, _, h2⟩ := hstep.lexes_rest (by simpa using h)
    exact ih h2

/-! A token that is followed by whitespace does not depend on what comes after. -/

theorem startsWith_local {u s : Text} {lit : String} (hl : ∀ c ∈ lit.toList, isWs c = false)
    (hs : ∃ c cs, s = c :: cs ∧ isWs c = true) : startsWith (u ++ s) lit = startsWith u lit := by
  unfold startsWith
  obtain ⟨c, cs, rfl, hc⟩ := hs
  generalize lit.toList = l at hl
  induction l generalizing u with
  | nil => simp
  | cons x xs ih =>
    cases u with
    | nil =>
      have := hl x (List.mem_cons_self ..)
      have hne : (x == c) = false := by
        rw [beq_eq_false_iff_ne]
        rintro rfl
        rw [hc] at this
        cases this
      simp [List.isPrefixOf, hne]
    | cons y ys =>
      simp only [List.cons_append, List.isPrefixOf]
      rw [ih (fun z hz => hl z (List.mem_cons_of_mem _ hz))]

theorem takeWhile_local {p : Char → Bool} {u s : Text} (hp : ∀ c, isWs c = true → p c = false)
    (hs : ∃ c cs, s = c :: cs ∧ isWs c = true) : (u ++ s).takeWhile p = u.takeWhile p := by
  obtain ⟨c, cs, rfl, hc⟩ := hs
  induction u with
  | nil => simp [hp c hc]
  | cons y ys ih =>
    simp only [List.cons_append, List.takeWhile_cons, ih]

theorem dropWhile_local {p : Char → Bool} {u s : Text} (hp : ∀ c, isWs c = true → p c = false)
    (hs : ∃ c cs, s = c :: cs ∧ isWs c = true) : (u ++ s).dropWhile p = u.dropWhile p ++ s := by
  obtain ⟨c, cs, rfl, hc⟩ := hs
  induction u with
  | nil => simp [hp c hc]
  | cons y ys ih =>
    simp only [List.cons_append, List.dropWhile_cons, ih]
    split <;> rfl

theorem isDigit_not_ws {c : Char} (h : isWs c = true) : isDigit c = false := by
  unfold isWs at h
  simp only [Bool.or_eq_true, beq_iff_eq] at h
  rcases h with (rfl | rfl) | rfl <;> decide

theorem isHexDigit_not_ws {c : Char} (h : isWs c = true) : isHexDigit c = false := by
  unfold isWs at h
  simp only [Bool.or_eq_true, beq_iff_eq] at h
  rcases h with (rfl | rfl) | rfl <;> decide

theorem isNameChar_not_ws {c : Char} (h : isWs c = true) : isNameChar c = false := by
  unfold isWs at h
  simp only [Bool.or_eq_true, beq_iff_eq] at h
  rcases h with (rfl | rfl) | rfl <;> decide

/-- `get_number_maybe_with_suffix` after a run of digits. -/
theorem suffix_run (p : Char → Bool) (t : Text) :
    getNumberMaybeWithSuffix t (byteLen (t.takeWhile p))
      = some (.INTEGER_NUMBER, byteLen (t.takeWhile p) +
          (if startsWith (t.dropWhile p) "u8" then 2
           else if startsWith (t.dropWhile p) "u64" then 3
           else if startsWith (t.dropWhile p) "u128" then 4 else 0)) := by
  unfold getNumberMaybeWithSuffix
  rw [slice_run]
  simp only
  repeat' split
  all_goals rfl

theorem suffix_local {p : Char → Bool} {u s : Text} (hp : ∀ c, isWs c = true → p c = false)
    (hs : ∃ c cs, s = c :: cs ∧ isWs c = true) :
    getNumberMaybeWithSuffix (u ++ s) (byteLen ((u ++ s).takeWhile p))
      = getNumberMaybeWithSuffix u (byteLen (u.takeWhile p)) := by
  rw [suffix_run, suffix_run, takeWhile_local hp hs, dropWhile_local hp hs,
    startsWith_local (by decide) hs, startsWith_local (by decide) hs,
    startsWith_local (by decide) hs]

theorem number_local {c : Char} {u s s' : Text}
    (hs : ∃ c cs, s = c :: cs ∧ isWs c = true) (hs' : ∃ c cs, s' = c :: cs ∧ isWs c = true) :
    number (c :: (u ++ s)) = number (c :: (u ++ s')) := by
  have key : ∀ s : Text, (∃ c cs, s = c :: cs ∧ isWs c = true) →
      number ((c :: u) ++ s)
        = if startsWith (c :: u) "0x" then
            (match getNumberMaybeWithSuffix (u.drop 1) (byteLen ((u.drop 1).takeWhile isHexDigit)) with
             | none => none
             | some (tok, hexLen) =>
               if hexLen == 0 then some (.INTEGER_NUMBER, 1) else some (tok, 2 + hexLen))
          else getNumberMaybeWithSuffix (c :: u) (byteLen ((c :: u).takeWhile isDigit)) := by
    intro s hs
    unfold number
    rw [startsWith_local (by decide) hs]
    cases h0 : startsWith (c :: u) "0x" with
    | false =>
      simp only [Bool.false_and, Bool.false_eq_true, if_false]
      unfold getDecimalNumber
      rw [findIdx_run (fun _ h => isDigit_ascii h)]
      exact suffix_local (fun c h => isDigit_not_ws h) hs
    | true =>
      obtain ⟨r, hr⟩ : ∃ r, c :: u = '0' :: 'x' :: r := by
        unfold startsWith at h0
        rw [List.isPrefixOf_iff_prefix] at h0
        obtain ⟨r, hr⟩ := h0
        exact ⟨r, hr.symm⟩
      injection hr with hc hu
      subst hc; subst hu
      have hlen : decide (byteLen (('0' :: 'x' :: r) ++ s) > 2) = true := by
        obtain ⟨d, ds, rfl, _⟩ := hs
        have := utf8Size_pos d
        have h0 : ('0' : Char).utf8Size = 1 := by rfl
        have hx : ('x' : Char).utf8Size = 1 := by rfl
        simp only [byteLen_append, byteLen_cons, h0, hx, decide_eq_true_eq]
        omega
      rw [hlen]
      simp only [Bool.and_self, if_true]
      have hsl : sliceFrom (('0' :: 'x' :: r) ++ s) 2 = some (r ++ s) := by
        have := sliceFrom_prefix ['0', 'x'] (r ++ s)
        exact this
      rw [hsl]
      simp only
      unfold getHexNumber
      rw [findByte_run, suffix_local (fun c h => isHexDigit_not_ws h) hs]
      simp only [List.drop_succ_cons, List.drop_zero]
      rfl
  rw [← List.cons_append, ← List.cons_append, key s hs, key s' hs']

theorem punct_local {u s s' : Text}
    (hs : ∃ c cs, s = c :: cs ∧ isWs c = true) (hs' : ∃ c cs, s' = c :: cs ∧ isWs c = true) :
    punct (u ++ s) = punct (u ++ s') := by
  unfold punct
  congr 1
  have htab : ∀ e ∈ punctTable, ∀ c ∈ e.1.toList, isWs c = false := by decide +kernel
  have aux : ∀ l : List (String × Kind × Nat), (∀ e ∈ l, ∀ c ∈ e.1.toList, isWs c = false) →
      l.find? (fun e => startsWith (u ++ s) e.1) = l.find? (fun e => startsWith (u ++ s') e.1) := by
    intro l
    induction l with
    | nil => intro _; rfl
    | cons e es ih =>
      intro h
      simp only [List.find?_cons]
      rw [startsWith_local (h e (List.mem_cons_self ..)) hs,
        startsWith_local (h e (List.mem_cons_self ..)) hs',
        ih (fun x hx => h x (List.mem_cons_of_mem _ hx))]
  exact aux _ htab

theorem getStringLen_local {v s s' : Text} {q : Nat} (h : getStringLen (v ++ s) = some q)
    (hq : q < v.length) : getStringLen (v ++ s') = some q := by
  generalize hn : v.length = n at hq
  induction n using Nat.strongRecOn generalizing v q with
  | ind n ih =>
    cases v with
    | nil => simp at hn; omega
    | cons c cs =>
      simp only [List.length_cons] at hn
      rw [List.cons_append] at h ⊢
      unfold getStringLen at h ⊢
      split
      · rename_i hc
        rw [if_pos hc] at h
        cases cs with
        | nil =>
          exfalso
          simp only [List.nil_append] at h
          cases s with
          | nil => cases h
          | cons d ds =>
            simp only [Option.map_eq_some_iff] at h
            obtain ⟨x, _, hx⟩ := h
            simp at hn
            omega
        | cons d ds =>
          simp only [List.cons_append, List.length_cons, Option.map_eq_some_iff] at h hn ⊢
          obtain ⟨x, hx, hx2⟩ := h
          exact ⟨x, ih ds.length (by omega) hx rfl (by omega), hx2⟩
      · rename_i hc
        rw [if_neg hc] at h
        split
        · rename_i hd; rw [if_pos hd] at h; exact h
        · rename_i hd
          rw [if_neg hd] at h
          simp only [Option.map_eq_some_iff] at h ⊢
          obtain ⟨x, hx, hx2⟩ := h
          exact ⟨x, ih cs.length (by omega) hx rfl (by omega), hx2⟩

theorem getStringLen_lt {t : Text} {q : Nat} (h : getStringLen t = some q) : q < t.length := by
  generalize hn : t.length = n
  induction n using Nat.strongRecOn generalizing t q with
  | ind n ih =>
    cases t with
    | nil => cases h
    | cons c cs =>
      simp only [List.length_cons] at hn
      unfold getStringLen at h
      split at h
      · cases cs with
        | nil => cases h
        | cons d ds =>
          simp only [Option.map_eq_some_iff] at h
          obtain ⟨x, hx, rfl⟩ := h
          simp only [List.length_cons] at hn
          have := ih ds.length (by omega) hx rfl
          omega
      · split at h
        · cases h; omega
        · simp only [Option.map_eq_some_iff] at h
          obtain ⟨x, hx, rfl⟩ := h
          have := ih cs.length (by omega) hx rfl
          omega

theorem newlinePos_split {t : Text} {pos : Nat} (h : newlinePos t = some pos) :
    ∃ body rest, t = body ++ '\n' :: rest ∧ '\n' ∉ body ∧ pos = byteLen body := by
  induction t generalizing pos with
  | nil => cases h
  | cons c cs ih =>
    unfold newlinePos at h
    split at h
    · rename_i hc
      cases h
      simp only [beq_iff_eq] at hc
      subst hc
      exact ⟨[], cs, rfl, by simp, rfl⟩
    · rename_i hc
      rw [Option.map_eq_some_iff] at h
      obtain ⟨x, hx, rfl⟩ := h
      obtain ⟨body, rest, h1, h2, h3⟩ := ih hx
      refine ⟨c :: body, rest, by rw [h1]; rfl, ?_, by rw [h3, byteLen_cons]; omega⟩
      intro hm
      rw [List.mem_cons] at hm
      rcases hm with rfl | hm
      · simp at hc
      · exact h2 hm

theorem firstLine_append {u r : Text} (h : '\n' ∉ u) : firstLine (u ++ r) = u ++ firstLine r := by
  unfold firstLine
  induction u with
  | nil => rfl
  | cons c cs ih =>
    have hc : (c != '\n') = true := by
      rw [bne_iff_ne]
      rintro rfl
      exact h (List.mem_cons_self ..)
    simp only [List.cons_append, List.takeWhile_cons, hc, if_true]
    rw [ih (fun hm => h (List.mem_cons_of_mem _ hm))]

theorem wsRun_local {v s s' : Text} {n : Nat} (h : wsRun (v ++ s) = n) (hn : n ≤ byteLen v)
    (hs : ∃ c cs, s = c :: cs ∧ isWs c = true) : wsRun (v ++ s') = n := by
  obtain ⟨d, ds, rfl, hd⟩ := hs
  induction v generalizing n with
  | nil =>
    simp only [List.nil_append, wsRun, hd, if_true, byteLen_nil] at h hn
    omega
  | cons x xs ih =>
    simp only [List.cons_append, wsRun, byteLen_cons] at h hn ⊢
    split
    · rename_i hx
      rw [if_pos hx] at h
      rw [isWs_ascii hx] at hn
      have := ih (n := wsRun (xs ++ d :: ds)) (by omega) rfl
      omega
    · rename_i hx
      rw [if_neg hx] at h
      exact h

theorem findToken_local {u m s s' : Text} {k : Kind} (hu : u ≠ [])
    (h : findToken (u ++ (m ++ s)) = some (k, byteLen u))
    (hb : k = .BYTE_STRING → ∀ c ∈ u, c.utf8Size = 1)
    (hs : ∃ c cs, s = c :: cs ∧ isWs c = true) (hs' : ∃ c cs, s' = c :: cs ∧ isWs c = true) :
    findToken (u ++ (m ++ s')) = some (k, byteLen u) := by
  cases u with
  | nil => exact absurd rfl hu
  | cons c cs =>
    have hv : byteLen (c :: cs) ≤ byteLen (c :: (cs ++ m)) := by
      simp only [byteLen_cons, byteLen_append]; omega
    have as1 : ∀ x : Text, c :: cs ++ (m ++ x) = c :: ((cs ++ m) ++ x) := by intro x; simp
    rw [as1] at h ⊢
    generalize hn : byteLen (c :: cs) = n at h hv ⊢
    generalize hw : cs ++ m = w at h hv ⊢
    unfold findToken at h ⊢
    simp only at h ⊢
    split at h
    · rename_i hws
      rw [if_pos hws]
      injection h with h
      injection h with hk h
      have := wsRun_local (v := c :: w) (s := s) (s' := s') h hv hs
      rw [List.cons_append] at this
      rw [this, hk]
    · rename_i hws
      rw [if_neg hws]
      have hst : ∀ (x : Text), (∃ c cs, x = c :: cs ∧ isWs c = true) →
          startsWith (c :: (w ++ x)) "//" = startsWith (c :: w) "//" := by
        intro x hx
        rw [← List.cons_append]
        exact startsWith_local (by decide) hx
      split at h
      · rename_i hcom
        have hcom' : (c == '/' && startsWith (c :: (w ++ s')) "//") = true := by
          rw [hst s hs] at hcom; rw [hst s' hs']; exact hcom
        rw [if_pos hcom']
        cases hp : newlinePos (c :: (w ++ s)) with
        | none =>
          rw [hp] at h
          exfalso
          injection h with h
          injection h with _ h
          obtain ⟨d, ds, rfl, _⟩ := hs
          have := utf8Size_pos d
          rw [← List.cons_append, byteLen_append, byteLen_cons (cs := ds)] at h
          omega
        | some pos =>
          rw [hp] at h
          injection h with h
          injection h with hk hlen
          obtain ⟨body, rest, h1, h2, h3⟩ := newlinePos_split hp
          have hbody : byteLen (c :: cs) = byteLen (body ++ ['\n']) := by
            rw [byteLen_append, ← h3, hn, ← hlen]; rfl
          have h1' : (c :: cs) ++ (m ++ s) = (body ++ ['\n']) ++ rest := by
            rw [as1, hw, h1]; simp
          obtain ⟨e1, _⟩ := prefix_unique h1' hbody
          have : newlinePos (c :: (w ++ s')) = some (byteLen body) := by
            rw [← hw, ← as1, e1, List.append_assoc]
            exact newlinePos_append h2
          rw [this]
          simp only
          rw [← h3, hlen, hk]
      · rename_i hcom
        have hcom' : ¬ (c == '/' && startsWith (c :: (w ++ s')) "//") = true := by
          rw [hst s hs] at hcom; rw [hst s' hs']; exact hcom
        rw [if_neg hcom']
        split at h
        · rename_i hd; rw [if_pos hd]; rw [← number_local hs hs']; exact h
        · rename_i hd
          rw [if_neg hd]
          split at h
          · rename_i hnm
            rw [if_pos hnm]
            have hsx : ∀ (x : Text), (∃ c cs, x = c :: cs ∧ isWs c = true) →
                (startsWith (c :: (w ++ x)) "x\"" || startsWith (c :: (w ++ x)) "b\"")
                  = (startsWith (c :: w) "x\"" || startsWith (c :: w) "b\"") := by
              intro x hx
              rw [← List.cons_append, startsWith_local (by decide) hx, startsWith_local (by decide) hx]
            cases hq : (startsWith (c :: w) "x\"" || startsWith (c :: w) "b\"") with
            | true =>
              unfold nameOrByteString at h ⊢
              rw [hsx s hs, hq] at h
              rw [hsx s' hs', hq]
              simp only [if_true] at h ⊢
              cases hg : getStringLen ((firstLine (c :: (w ++ s))).drop 2) with
              | none => rw [hg] at h; cases h
              | some q =>
                rw [hg] at h
                injection h with h
                injection h with hk hlen
                have hasc := hb hk.symm
                have hlen' := byteLen_eq_length hasc
                have hulen : (c :: cs).length = q + 3 := by omega
                have hqlt := getStringLen_lt hg
                -- the first line contains all of `u`
                have hline : ∃ l, firstLine (c :: (w ++ s)) = (c :: cs) ++ l ∧ '\n' ∉ (c :: cs) := by
                  have hlt : q + 2 < (firstLine (c :: (w ++ s))).length := by
                    rw [List.length_drop] at hqlt; omega
                  have hpre : firstLine (c :: (w ++ s)) <+: (c :: cs) ++ (m ++ s) := by
                    rw [as1, hw]
                    unfold firstLine; exact List.takeWhile_prefix _
                  have hpre2 : (c :: cs) <+: firstLine (c :: (w ++ s)) :=
                    List.prefix_of_prefix_length_le (List.prefix_append _ _) hpre (by omega)
                  obtain ⟨l, hl⟩ := hpre2
                  refine ⟨l, hl.symm, ?_⟩
                  intro hm
                  have hm2 : '\n' ∈ firstLine (c :: (w ++ s)) := by
                    rw [← hl]; exact List.mem_append_left _ hm
                  have := List.all_takeWhile (p := (· != '\n')) (l := c :: (w ++ s))
                  rw [List.all_eq_true] at this
                  have := this '\n' hm2
                  simp at this
                obtain ⟨l, hl, hnl⟩ := hline
                rw [hl] at hg
                have hl' : firstLine (c :: (w ++ s')) = (c :: cs) ++ firstLine (m ++ s') := by
                  rw [← hw, ← as1]; exact firstLine_append hnl
                rw [hl']
                have hdrop : ∀ x : Text, ((c :: cs) ++ x).drop 2 = (c :: cs).drop 2 ++ x := by
                  intro x
                  rw [List.drop_append_of_le_length (by omega)]
                rw [hdrop] at hg ⊢
                rw [getStringLen_local hg (by rw [List.length_drop]; omega)]
                simp only
                rw [← hk, hlen]
            | false =>
              have e1 := hsx s hs
              have e2 := hsx s' hs'
              rw [hq] at e1 e2
              rw [name_spec e1] at h
              rw [name_spec e2, ← h]
              rw [← List.cons_append, ← List.cons_append,
                takeWhile_local (fun c h => isNameChar_not_ws h) hs,
                takeWhile_local (fun c h => isNameChar_not_ws h) hs']
          · rename_i hnm
            rw [if_neg hnm, ← List.cons_append, ← punct_local (u := c :: w) hs hs']
            exact h

theorem steps_local {a s s' : Text} {ta : List (Kind × Text)} (h : Steps (a ++ s) ta s)
    (hb : ∀ x ∈ ta, x.1 = .BYTE_STRING → ∀ c ∈ x.2, c.utf8Size = 1)
    (hs : ∃ c cs, s = c :: cs ∧ isWs c = true) (hs' : ∃ c cs, s' = c :: cs ∧ isWs c = true) :
    Steps (a ++ s') ta s' := by
  induction ta generalizing a with
  | nil =>
    have : a = [] := by
      have := h.text
      simpa using this
    subst this
    exact .nil _
  | cons x xs ih =>
    generalize ht : a ++ s = t at h
    cases h with
    | @cons u r k _ _ hu hf hrest =>
      have hr := hrest.text
      have : a = u ++ (xs.map Prod.snd).flatten := by
        rw [hr, ← List.append_assoc] at ht
        exact List.append_cancel_right ht
      subst this
      rw [List.append_assoc] at ht ⊢
      have hr2 : r = (xs.map Prod.snd).flatten ++ s := hr
      rw [hr2] at hf hrest
      have ih' := ih hrest (fun y hy => hb y (List.mem_cons_of_mem _ hy))
      exact .cons hu (findToken_local hu hf (hb _ (List.mem_cons_self ..)) hs hs') ih'

/-- **C39.**  Whatever trivia stands at a place where there is whitespace already, the tokens
that are not trivia are the same: replacing `w1` by `w2` changes no significant token before or
after.  Both must start with whitespace.

Partial: byte strings before the place must be ASCII.  Without that the property is false, see
`trivia_changes_non_ascii_byte_string`. -/
theorem trivia_is_insignificant_partial {a b w1 w2 : Text} {ta tb : List (Kind × Text)}
    {c1 c2 : Char} {v1 v2 : Text} (hw1 : w1 = c1 :: v1) (hw2 : w2 = c2 :: v2)
    (hc1 : Space c1) (hc2 : Space c2) (h1 : Trivia w1) (h2 : Trivia w2)
    (ha : Steps (a ++ (w1 ++ b)) ta (w1 ++ b))
    (hascii : ∀ x ∈ ta, x.1 = .BYTE_STRING → ∀ c ∈ x.2, c.utf8Size = 1)
    (hb : Lexes (w1 ++ b) tb) :
    ∃ ts, Lexes (a ++ (w2 ++ b)) ts ∧ significant ts = significant (ta ++ tb) := by
  obtain ⟨t0, h0⟩ := lexes_of_trivia h1 hb
  obtain ⟨t1, h3, h4⟩ := lexes_trivia h1 h0
  obtain ⟨t2, h5, h6⟩ := lexes_trivia h2 h0
  have : t1 = tb := h3.unique hb
  subst this
  have hstep := steps_local (s' := w2 ++ b) ha hascii
    ⟨c1, v1 ++ b, by rw [hw1]; rfl, (isWs_iff c1).2 hc1⟩
    ⟨c2, v2 ++ b, by rw [hw2]; rfl, (isWs_iff c2).2 hc2⟩
  exact ⟨ta ++ t2, hstep.append h5, by rw [significant_append, significant_append, h4, h6]⟩

/-- The hypotheses of `trivia_is_insignificant_partial` hold for `fun` + blank + `f`; replacing the blank
by a newline and a comment keeps the two words. -/
example : ∃ ts, Lexes ("fun".toList ++ ("\n//c\n".toList ++ "f".toList)) ts ∧
    significant ts = [(.FUN_KW, "fun".toList), (.IDENT, "f".toList)] := by
  have := trivia_is_insignificant_partial (a := "fun".toList) (b := "f".toList) (w1 := " ".toList)
    (w2 := "\n//c\n".toList) (ta := [(.FUN_KW, "fun".toList)])
    (tb := [(.WHITESPACE, " ".toList), (.IDENT, "f".toList)]) (c1 := ' ') (c2 := '\n')
    (v1 := []) (v2 := "//c\n".toList) rfl rfl (.inl rfl) (.inr (.inl rfl))
    (.space (.inl rfl) .nil)
    (.space (.inr (.inl rfl)) (.comment (body := ['c']) (by decide) .nil))
    (.cons (u := "fun".toList) (r := " f".toList) (by decide) (by rfl) (.nil _))
    (by decide)
    (.cons (u := " ".toList) (r := "f".toList) (by decide) (by rfl)
      (.cons (u := "f".toList) (r := []) (by decide) (by rfl) (.nil _)))
  exact this

theorem startsWith_append (p : Text) (lit : String) (h : lit.toList = p) (rest : Text) :
    startsWith (p ++ rest) lit = true := by
  unfold startsWith
  rw [List.isPrefixOf_iff_prefix, h]
  exact List.prefix_append _ _

/-- Why byte strings must be ASCII: the length of a byte string token counts characters, not
bytes, so `x"é"` (five bytes) is read as a four byte token, and what follows its last quote
becomes part of the token stream. -/
theorem byte_string_counts_chars (rest : Text) :
    findToken (['x', '"', 'é', '"'] ++ rest) = some (.BYTE_STRING, 4) ∧
    byteLen ['x', '"', 'é', '"'] = 5 := by
  refine ⟨?_, by decide +kernel⟩
  have hl : firstLine (['x', '"', 'é', '"'] ++ rest) = ['x', '"', 'é', '"'] ++ firstLine rest :=
    firstLine_append (by decide)
  have hs : startsWith (['x', '"', 'é', '"'] ++ rest) "x\"" = true :=
    startsWith_append ['x', '"'] "x\"" rfl ('é' :: '"' :: rest)
  have hg : getStringLen ((['x', '"', 'é', '"'] ++ firstLine rest).drop 2) = some 1 := by
    have h1 : ('é' == '\\') = false := by decide
    have h2 : ('é' == '"') = false := by decide
    have h3 : getStringLen ('"' :: firstLine rest) = some 0 := by
      unfold getStringLen
      rfl
    simp [getStringLen, h1, h2, h3]
  have hf : findToken (['x', '"', 'é', '"'] ++ rest)
      = nameOrByteString (['x', '"', 'é', '"'] ++ rest) := by rfl
  rw [hf]
  unfold nameOrByteString
  rw [hs, hl, hg]
  rfl

/-- The text `x"éééé //"` is read as a byte string token that ends in the middle of the string,
a blank and a comment; with a newline in place of the blank, trivia for trivia, the text has no
first token at all (the lexer panics). -/
theorem trivia_changes_non_ascii_byte_string :
    Lexes (['x', '"', 'é', 'é', 'é', 'é'] ++ ([' '] ++ ['/', '/', '"']))
      [(.BYTE_STRING, ['x', '"', 'é', 'é', 'é', 'é']), (.WHITESPACE, [' ']),
       (.COMMENT, ['/', '/', '"'])] ∧
    findToken (['x', '"', 'é', 'é', 'é', 'é'] ++ (['\n'] ++ ['/', '/', '"'])) = none := by
  refine ⟨?_, by decide +kernel⟩
  refine .cons (by decide) (by decide +kernel) ?_
  refine .cons (u := [' ']) (by decide) (by decide +kernel) ?_
  exact .cons (u := ['/', '/', '"']) (r := []) (by decide) (by decide +kernel) (.nil _)

/-! C54: number literals. -/

/-- The type suffixes of integer literals. -/
def intSuffixes : List String := ["", "u8", "u64", "u128"]

theorem suffix_length {s : String} {rest : Text} (hs : s ∈ intSuffixes)
    (hr : ∀ x, rest.head? = some x → wordChar x = false) :
    (if startsWith (s.toList ++ rest) "u8" then 2
     else if startsWith (s.toList ++ rest) "u64" then 3
     else if startsWith (s.toList ++ rest) "u128" then 4 else 0) = byteLen s.toList := by
  simp only [intSuffixes, List.mem_cons, List.not_mem_nil, or_false] at hs
  rcases hs with rfl | rfl | rfl | rfl
  · have : ∀ lit : String, lit.toList.head? = some 'u' → startsWith rest lit = false := by
      intro lit hl
      unfold startsWith
      cases hlit : lit.toList with
      | nil => rw [hlit] at hl; cases hl
      | cons a as =>
        rw [hlit] at hl
        simp only [List.head?_cons, Option.some.injEq] at hl
        subst hl
        cases rest with
        | nil => rfl
        | cons c cs =>
          have hc := hr c rfl
          have : ('u' == c) = false := by
            rw [beq_eq_false_iff_ne]
            rintro rfl
            revert hc
            decide
          simp [List.isPrefixOf, this]
    show (if startsWith rest "u8" then 2 else if startsWith rest "u64" then 3
      else if startsWith rest "u128" then 4 else 0) = 0
    rw [this "u8" (by decide), this "u64" (by decide), this "u128" (by decide)]
    rfl
  · rfl
  · rfl
  · rfl

theorem takeWhile_digits {p : Char → Bool} {d r : Text} (hd : ∀ c ∈ d, p c = true)
    (hr : ∀ x, r.head? = some x → p x = false) :
    (d ++ r).takeWhile p = d ∧ (d ++ r).dropWhile p = r := by
  induction d with
  | nil =>
    cases r with
    | nil => exact ⟨rfl, rfl⟩
    | cons c cs => simp [hr c rfl]
  | cons c cs ih =>
    have := ih (fun x hx => hd x (List.mem_cons_of_mem _ hx))
    simp [hd c (List.mem_cons_self ..), this]

theorem suffix_head {s : String} {rest : Text} {p : Char → Bool} (hs : s ∈ intSuffixes)
    (hp : p 'u' = false) (hw : ∀ c, p c = true → wordChar c = true)
    (hr : ∀ x, rest.head? = some x → wordChar x = false) :
    ∀ x, (s.toList ++ rest).head? = some x → p x = false := by
  simp only [intSuffixes, List.mem_cons, List.not_mem_nil, or_false] at hs
  intro x hx
  rcases hs with rfl | rfl | rfl | rfl
  · have := hr x hx
    cases h : p x with
    | false => rfl
    | true => rw [hw x h] at this; cases this
  all_goals
    simp at hx
    rw [← hx]
    exact hp

theorem isDigit_word {c : Char} (h : isDigit c = true) : wordChar c = true := by
  rw [isDigit_eq] at h
  unfold wordChar Char.isAlphanum
  rw [h]; simp

/-- **C54.**  A run of decimal digits with an optional integer type suffix, not followed by a
word character, is one integer token. -/
theorem decimal_literal {d rest : Text} {s : String} (hne : d ≠ [])
    (hd : ∀ c ∈ d, c.isDigit = true) (hs : s ∈ intSuffixes)
    (hr : ∀ x, rest.head? = some x → wordChar x = false) :
    findToken (d ++ (s.toList ++ rest)) = some (.INTEGER_NUMBER, byteLen (d ++ s.toList)) := by
  have hd' : ∀ c ∈ d, isDigit c = true := fun c hc => by rw [isDigit_eq]; exact hd c hc
  cases d with
  | nil => exact absurd rfl hne
  | cons c cs =>
    have hc := hd' c (List.mem_cons_self ..)
    have hws : isWs c = false := by
      cases h : isWs c with
      | false => rfl
      | true => rw [isDigit_not_ws h] at hc; cases hc
    have hsl : (c == '/') = false := by
      rw [beq_eq_false_iff_ne]; rintro rfl; revert hc; decide
    have hhead := suffix_head (p := isDigit) hs (by decide) (fun c h => isDigit_word h) hr
    have h0x : startsWith (c :: cs ++ (s.toList ++ rest)) "0x" = false := by
      cases h : startsWith (c :: cs ++ (s.toList ++ rest)) "0x" with
      | false => rfl
      | true =>
        exfalso
        unfold startsWith at h
        rw [List.isPrefixOf_iff_prefix] at h
        obtain ⟨r, hr'⟩ := h
        cases cs with
        | nil =>
          have : (s.toList ++ rest).head? = some 'x' := by
            have e : 'x' :: r = s.toList ++ rest := by
              have := congrArg List.tail hr'
              exact this
            rw [← e]; rfl
          have := hr
          simp only [intSuffixes, List.mem_cons, List.not_mem_nil, or_false] at hs
          rcases hs with rfl | rfl | rfl | rfl
          · have := hr 'x' (by assumption)
            revert this; decide
          all_goals simp at *
        | cons e es =>
          have : 'x' = e := by
            have := congrArg (fun l => l.tail.head?) hr'
            simpa using this
          subst this
          have := hd' 'x' (by simp)
          revert this; decide
    rw [List.cons_append] at h0x ⊢
    unfold findToken
    simp only [hws, hsl, hc, Bool.false_and, Bool.false_eq_true, if_false, if_true]
    unfold number
    rw [h0x]
    simp only [Bool.false_and, Bool.false_eq_true, if_false]
    unfold getDecimalNumber
    rw [findIdx_run (fun _ h => isDigit_ascii h)]
    obtain ⟨e1, e2⟩ := takeWhile_digits hd' hhead
    rw [List.cons_append] at e1 e2
    rw [suffix_run, e1, e2, suffix_length hs hr, byteLen_append]

/-- **C54.**  `0x` and a run of hexadecimal digits with an optional integer type suffix, not
followed by a word character, is one integer token. -/
theorem hex_literal {d rest : Text} {s : String} (hne : d ≠ [])
    (hd : ∀ c ∈ d, c.isDigit = true ∨ c ∈ "abcdefABCDEF".toList) (hs : s ∈ intSuffixes)
    (hr : ∀ x, rest.head? = some x → wordChar x = false) :
    findToken ("0x".toList ++ (d ++ (s.toList ++ rest)))
      = some (.INTEGER_NUMBER, byteLen ("0x".toList ++ (d ++ s.toList))) := by
  have hhex : ∀ c ∈ "abcdefABCDEF".toList, isHexDigit c = true := by decide +kernel
  have hd' : ∀ c ∈ d, isHexDigit c = true := by
    intro c hc
    rcases hd c hc with h | h
    · rw [← isDigit_eq] at h
      simp [isHexDigit, h]
    · exact hhex c h
  have hhw : ∀ c, isHexDigit c = true → wordChar c = true := by
    intro c h
    have : isNameChar c = true := by
      unfold isHexDigit at h
      unfold isNameChar isNameStart
      simp only [Bool.or_eq_true, Bool.and_eq_true, decide_eq_true_eq] at h ⊢
      rcases h with (h | h) | h
      · exact .inl (.inl (.inr ⟨h.1, Char.le_trans h.2 (by decide)⟩))
      · exact .inl (.inl (.inl ⟨h.1, Char.le_trans h.2 (by decide)⟩))
      · exact .inr h
    rw [isNameChar_eq] at this
    exact this
  have hhead := suffix_head (p := isHexDigit) hs (by decide) hhw hr
  obtain ⟨e1, e2⟩ := takeWhile_digits hd' hhead
  have hlen : decide (byteLen ("0x".toList ++ (d ++ (s.toList ++ rest))) > 2) = true := by
    cases d with
    | nil => exact absurd rfl hne
    | cons c cs =>
      have := utf8Size_pos c
      have h2 : byteLen "0x".toList = 2 := by rfl
      simp only [byteLen_append, byteLen_cons, h2, decide_eq_true_eq]
      omega
  have hsl : sliceFrom ("0x".toList ++ (d ++ (s.toList ++ rest))) 2
      = some (d ++ (s.toList ++ rest)) := sliceFrom_prefix "0x".toList _
  have hst := startsWith_append "0x".toList "0x" rfl (d ++ (s.toList ++ rest))
  have hft : findToken ("0x".toList ++ (d ++ (s.toList ++ rest)))
      = number ("0x".toList ++ (d ++ (s.toList ++ rest))) := by rfl
  rw [hft]
  unfold number
  rw [hst, hlen]
  simp only [Bool.and_self, if_true]
  rw [hsl]
  simp only
  unfold getHexNumber
  rw [findByte_run, suffix_run, e1, e2, suffix_length hs hr]
  have hpos : (byteLen d + byteLen s.toList == 0) = false := by
    cases d with
    | nil => exact absurd rfl hne
    | cons c cs =>
      have := utf8Size_pos c
      rw [beq_eq_false_iff_ne, byteLen_cons]
      omega
  simp only [hpos, Bool.false_eq_true, if_false, byteLen_append]
  rfl

example : findToken "0x1Fu64;".toList = some (.INTEGER_NUMBER, 7) := by rfl
example : findToken "10u128)".toList = some (.INTEGER_NUMBER, 6) := by rfl

end Verif.Lexer
