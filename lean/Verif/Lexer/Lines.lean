import Verif.Lexer.Lookahead

set_option autoImplicit false

/-! Property C104: tokens do not depend on other lines. -/

namespace Verif.Lexer.Lines

open Verif.Lexer

/-! ## Specification -/

/-- The tokens that are neither whitespace nor comments, each with the byte offset at which it starts, if the first
token starts at the given offset. -/
def placed : Nat → List (Kind × Text) → List (Nat × Kind × Text)
  | _, [] => []
  | n, (k, u) :: ts =>
    if k = .WHITESPACE ∨ k = .COMMENT then placed (n + byteLen u) ts else (n, k, u) :: placed (n + byteLen u) ts

/-- The text with the given lines. -/
def joinLines : List Text → Text
  | [] => []
  | [l] => l
  | l :: ls => l ++ '\n' :: joinLines ls

/-- `LineTokens n lines tokens`: the tokens of the lines, read one line at a time, the first line starting at `n`. -/
inductive LineTokens : Nat → List Text → List (Nat × Kind × Text) → Prop where
  | nil (n : Nat) : LineTokens n [] []
  | cons {n : Nat} {l : Text} {ls : List Text} {tl : List (Kind × Text)} {more : List (Nat × Kind × Text)} :
      Lexes l tl → LineTokens (n + byteLen l + 1) ls more → LineTokens n (l :: ls) (placed n tl ++ more)

/-! ## Lemmas -/

theorem nl_ws (b : Text) : ∃ c cs, '\n' :: b = c :: cs ∧ isWs c = true := ⟨'\n', b, rfl, by decide⟩

theorem nl_size : ('\n' : Char).utf8Size = 1 := by decide

theorem placed_trivia_ws (n : Nat) (u : Text) (ts : List (Kind × Text)) :
    placed n ((.WHITESPACE, u) :: ts) = placed (n + byteLen u) ts := by
  simp [placed]

theorem placed_trivia_comment (n : Nat) (u : Text) (ts : List (Kind × Text)) :
    placed n ((.COMMENT, u) :: ts) = placed (n + byteLen u) ts := by
  simp [placed]

/-- A space in front moves the tokens. -/
theorem space_moves {c : Char} {b : Text} {ts : List (Kind × Text)} (hc : Space c)
    (h : Lexes b ts) : ∃ ts', Lexes (c :: b) ts' ∧ ∀ n, placed n ts' = placed (n + byteLen [c]) ts := by
  have hsplit : b = b.takeWhile isWs ++ b.dropWhile isWs := (List.takeWhile_append_dropWhile).symm
  have hall : ∀ x ∈ b.takeWhile isWs, isWs x = true := by
    have := List.all_takeWhile (p := isWs) (l := b)
    rw [List.all_eq_true] at this
    exact this
  have hhead : ∀ x, (b.dropWhile isWs).head? = some x → ¬ Space x := by
    intro x hx hs
    have := List.head?_dropWhile_not isWs b
    rw [hx] at this
    simp only [(isWs_iff x).2 hs] at this
    cases this
  have hrest : ∃ ts1, Lexes (b.dropWhile isWs) ts1 ∧ ∀ n, placed n ts = placed (n + byteLen (b.takeWhile isWs)) ts1 := by
    cases hw : b.takeWhile isWs with
    | nil =>
      rw [hw, List.nil_append] at hsplit
      rw [← hsplit]
      exact ⟨ts, h, fun n => rfl⟩
    | cons d w =>
      have htok : findToken b = some (.WHITESPACE, byteLen (d :: w)) := by
        rw [hsplit, hw]
        apply whitespace_token
        · intro x hx; rw [← hw] at hx; exact (isWs_iff x).1 (hall x hx)
        · exact hhead
      have hstep : Steps b [(.WHITESPACE, d :: w)] (b.dropWhile isWs) := by
        have hb : b = (d :: w) ++ b.dropWhile isWs := by rw [← hw]; exact hsplit
        rw [hb] at htok
        have := Steps.cons (by simp) htok (.nil (b.dropWhile isWs))
        rwa [← hb] at this
      obtain ⟨ys, h1, h2⟩ := hstep.lexes_rest h
      exact ⟨ys, h2, fun n => by rw [h1]; exact placed_trivia_ws n (d :: w) ys⟩
  obtain ⟨ts1, h1, h2⟩ := hrest
  refine ⟨(.WHITESPACE, c :: b.takeWhile isWs) :: ts1, ?_, fun n => ?_⟩
  · have hb : c :: b = (c :: b.takeWhile isWs) ++ b.dropWhile isWs := by
      rw [List.cons_append, ← hsplit]
    rw [hb]
    refine .cons (by simp) ?_ h1
    apply whitespace_token
    · intro x hx
      rw [List.mem_cons] at hx
      rcases hx with rfl | hx
      · exact hc
      · exact (isWs_iff x).1 (hall x hx)
    · exact hhead
  · rw [placed_trivia_ws, h2]
    simp only [byteLen_cons, byteLen_nil]
    congr 1
    omega

/-- Trivia in front moves the tokens. -/
theorem trivia_moves {w b : Text} {ts : List (Kind × Text)} (hw : Trivia w) (h : Lexes b ts) :
    ∃ ts', Lexes (w ++ b) ts' ∧ ∀ n, placed n ts' = placed (n + byteLen w) ts := by
  induction hw with
  | nil => exact ⟨ts, h, fun n => rfl⟩
  | space hc _ ih =>
    obtain ⟨ts1, h1, h2⟩ := ih
    obtain ⟨ts2, h3, h4⟩ := space_moves hc h1
    refine ⟨ts2, h3, fun n => ?_⟩
    rw [h4, h2]
    simp only [byteLen_cons, byteLen_nil]
    congr 1
    omega
  | @comment body w hb _ ih =>
    obtain ⟨ts1, h1, h2⟩ := ih
    refine ⟨(.COMMENT, '/' :: '/' :: (body ++ ['\n'])) :: ts1, ?_, fun n => ?_⟩
    · have := Steps.cons (u := '/' :: '/' :: (body ++ ['\n'])) (r := w ++ b) (k := .COMMENT) (by simp)
        (by
          have := comment_token (body := body) (rest := w ++ b) hb
          simpa using this) h1
      show Steps _ _ _
      simpa using this
    · rw [placed_trivia_comment, h2]
      simp only [byteLen_cons, byteLen_append, byteLen_nil]
      congr 1
      omega

/-- The first token of a text that starts neither with whitespace nor with a comment does not change when lines are
added. -/
theorem findToken_line {c : Char} {cs b : Text} (hc : isWs c = false)
    (hcm : (c == '/' && startsWith (c :: cs) "//") = false) :
    findToken (c :: cs ++ '\n' :: b) = findToken (c :: cs) := by
  have hs := nl_ws b
  have hcm' : (c == '/' && startsWith (c :: (cs ++ '\n' :: b)) "//") = false := by
    rw [← List.cons_append, startsWith_local (by decide) hs]; exact hcm
  show findToken (c :: (cs ++ '\n' :: b)) = _
  unfold findToken
  simp only [hc, hcm, hcm', Bool.false_eq_true, if_false]
  split
  · -- numbers
    rw [← List.cons_append]
    unfold number
    rw [startsWith_local (by decide) hs]
    cases h0 : startsWith (c :: cs) "0x" with
    | false =>
      simp only [Bool.false_and, Bool.false_eq_true, if_false]
      unfold getDecimalNumber
      rw [findIdx_run (fun _ h => isDigit_ascii h), findIdx_run (fun _ h => isDigit_ascii h)]
      exact suffix_local (fun c h => isDigit_not_ws h) hs
    | true =>
      obtain ⟨r, hr⟩ : ∃ r, c :: cs = '0' :: 'x' :: r := by
        unfold startsWith at h0
        rw [List.isPrefixOf_iff_prefix] at h0
        obtain ⟨r, hr⟩ := h0
        exact ⟨r, hr.symm⟩
      rw [hr]
      have h0' : ('0' : Char).utf8Size = 1 := by decide
      have hx' : ('x' : Char).utf8Size = 1 := by decide
      have hlen : decide (byteLen (('0' :: 'x' :: r) ++ '\n' :: b) > 2) = true := by
        simp only [byteLen_append, byteLen_cons, h0', hx', nl_size, decide_eq_true_eq]
        omega
      rw [hlen]
      simp only [Bool.and_self, if_true]
      have hsl : ∀ t : Text, sliceFrom ('0' :: 'x' :: t) 2 = some t := fun t => sliceFrom_prefix ['0', 'x'] t
      show (match sliceFrom ('0' :: 'x' :: (r ++ '\n' :: b)) 2 with
        | none => none
        | some t => _) = _
      rw [hsl]
      simp only
      have hexeq : getHexNumber (r ++ '\n' :: b) = getHexNumber r := by
        unfold getHexNumber
        rw [findByte_run, findByte_run, suffix_local (fun c h => isHexDigit_not_ws h) hs]
      rw [hexeq]
      cases r with
      | nil => decide
      | cons d ds =>
        have : decide (byteLen ('0' :: 'x' :: d :: ds) > 2) = true := by
          have := utf8Size_pos d
          simp only [byteLen_cons, h0', hx', decide_eq_true_eq]
          omega
        rw [this]
        rw [hsl]
        rfl
  · split
    · -- names and byte strings
      have hf : firstLine (c :: cs ++ '\n' :: b) = firstLine (c :: cs) := by
        unfold firstLine
        generalize c :: cs = l
        induction l with
        | nil => simp
        | cons x xs ih => simp only [List.cons_append, List.takeWhile_cons, ih]
      unfold nameOrByteString
      rw [← List.cons_append, startsWith_local (by decide) hs, startsWith_local (by decide) hs, hf]
      have hn : ∀ t : Text, sliceRange t 0 (getNameLen t) = some (t.takeWhile isNameChar) := by
        intro t
        rw [getNameLen_run]
        have := sliceRange_zero_prefix (t.takeWhile isNameChar) (t.dropWhile isNameChar)
        rwa [List.takeWhile_append_dropWhile] at this
      simp only [hn]
      rw [getNameLen_run, getNameLen_run, takeWhile_local (fun c h => isNameChar_not_ws h) hs]
    · -- punctuation
      rw [← List.cons_append]
      unfold punct
      congr 1
      have htab : ∀ e ∈ punctTable, ∀ c ∈ e.1.toList, isWs c = false := by decide +kernel
      have aux : ∀ l : List (String × Kind × Nat), (∀ e ∈ l, ∀ c ∈ e.1.toList, isWs c = false) →
          l.find? (fun e => startsWith (c :: cs ++ '\n' :: b) e.1) = l.find? (fun e => startsWith (c :: cs) e.1) := by
        intro l
        induction l with
        | nil => intro _; rfl
        | cons e es ih =>
          intro h
          simp only [List.find?_cons]
          rw [startsWith_local (h e (List.mem_cons_self ..)) hs, ih (fun x hx => h x (List.mem_cons_of_mem _ hx))]
      exact aux _ htab

theorem startsWith_byteLen {t : Text} {lit : String} (h : startsWith t lit = true) : byteLen lit.toList ≤ byteLen t := by
  unfold startsWith at h
  rw [List.isPrefixOf_iff_prefix] at h
  obtain ⟨r, hr⟩ := h
  rw [← hr, byteLen_append]
  omega

theorem suffix_le (p : Char → Bool) (t : Text) (k : Kind) (n : Nat)
    (h : getNumberMaybeWithSuffix t (byteLen (t.takeWhile p)) = some (k, n)) : n ≤ byteLen t := by
  rw [suffix_run] at h
  injection h with h
  injection h with _ h
  have e : byteLen t = byteLen (t.takeWhile p) + byteLen (t.dropWhile p) := by
    rw [← byteLen_append, List.takeWhile_append_dropWhile]
  have l1 : byteLen "u8".toList = 2 := by decide
  have l2 : byteLen "u64".toList = 3 := by decide
  have l3 : byteLen "u128".toList = 4 := by decide
  split at h
  · rename_i hs; have := startsWith_byteLen hs; omega
  · split at h
    · rename_i hs; have := startsWith_byteLen hs; omega
    · split at h
      · rename_i hs; have := startsWith_byteLen hs; omega
      · omega

theorem byteLen_ge_length (t : Text) : t.length ≤ byteLen t := by
  induction t with
  | nil => simp
  | cons c cs ih => have := utf8Size_pos c; simp only [List.length_cons, byteLen_cons]; omega

/-- A token is not longer than the text. -/
theorem findToken_le {t : Text} {k : Kind} {n : Nat} (h : findToken t = some (k, n)) : n ≤ byteLen t := by
  cases t with
  | nil => unfold findToken at h; injection h with h; injection h with _ h; simp [← h]
  | cons c cs =>
    unfold findToken at h
    simp only at h
    split at h
    · injection h with h
      injection h with _ h
      rw [← h, Verif.Lexer.wsRun_eq (c :: cs)]
      have : byteLen (c :: cs) = byteLen ((c :: cs).takeWhile isWs) + byteLen ((c :: cs).dropWhile isWs) := by
        rw [← byteLen_append, List.takeWhile_append_dropWhile]
      omega
    · split at h
      · split at h
        · rename_i pos hp
          injection h with h
          injection h with _ h
          obtain ⟨body, rest, h1, _, h3⟩ := newlinePos_split hp
          rw [h1, byteLen_append, byteLen_cons, nl_size]
          omega
        · injection h with h
          injection h with _ h
          omega
      · split at h
        · unfold number at h
          split at h
          · rename_i h0
            simp only [Bool.and_eq_true, decide_eq_true_eq] at h0
            split at h
            · cases h
            · rename_i t hsl
              obtain ⟨p, hp1, hp2⟩ := sliceFrom_some hsl
              split at h
              · cases h
              · rename_i tok hexLen hh
                have hle : hexLen ≤ byteLen t := by
                  unfold getHexNumber at hh
                  rw [findByte_run] at hh
                  exact suffix_le _ _ _ _ hh
                have hb : byteLen (c :: cs) = byteLen p + byteLen t := by rw [hp1, byteLen_append]
                split at h <;> · injection h with h; injection h with _ h; omega
          · unfold getDecimalNumber at h
            rw [findIdx_run (fun _ h => isDigit_ascii h)] at h
            exact suffix_le _ _ _ _ h
        · split at h
          · cases hs : (startsWith (c :: cs) "x\"" || startsWith (c :: cs) "b\"") with
            | true =>
              unfold nameOrByteString at h
              rw [hs] at h
              simp only [if_true] at h
              split at h
              · rename_i q hq
                injection h with h
                injection h with _ h
                have h1 := getStringLen_lt hq
                rw [List.length_drop] at h1
                have h2 : (firstLine (c :: cs)).length ≤ (c :: cs).length := by
                  unfold firstLine
                  exact (List.takeWhile_sublist _).length_le
                have h3 := byteLen_ge_length (c :: cs)
                omega
              · cases h
            | false =>
              rw [name_spec hs] at h
              injection h with h
              injection h with _ h
              have : byteLen (c :: cs) = byteLen ((c :: cs).takeWhile isNameChar) + byteLen ((c :: cs).dropWhile isNameChar) := by
                rw [← byteLen_append, List.takeWhile_append_dropWhile]
              omega
          · obtain ⟨lit, hm, hp⟩ := punct_mem h
            have htab : ∀ e ∈ punctTable, e.2.2 = byteLen e.1.toList := by decide +kernel
            have := htab _ hm
            have h2 := startsWith_byteLen hp
            simp only at this
            omega

/-- A run of whitespace is trivia. -/
theorem trivia_ws {w : Text} (h : ∀ c ∈ w, isWs c = true) : Trivia w := by
  induction w with
  | nil => exact .nil
  | cons c cs ih =>
    exact .space ((isWs_iff c).1 (h c (List.mem_cons_self ..))) (ih fun x hx => h x (List.mem_cons_of_mem _ hx))

theorem Trivia.append {v w : Text} (hv : Trivia v) (hw : Trivia w) : Trivia (v ++ w) := by
  induction hv with
  | nil => exact hw
  | space hc _ ih => exact .space hc ih
  | @comment body w' hb _ ih =>
    have := Trivia.comment hb ih
    simpa using this

/-- How a text begins: with trivia, with an unfinished comment, or with another token. -/
theorem begins (a : Text) (ha : a ≠ []) :
    (∃ w r, a = w ++ r ∧ w ≠ [] ∧ Trivia w) ∨ (∃ body, a = '/' :: '/' :: body ∧ '\n' ∉ body) ∨
      (∀ b, findToken (a ++ '\n' :: b) = findToken a) := by
  cases a with
  | nil => exact absurd rfl ha
  | cons c cs =>
    cases hc : isWs c with
    | true => exact .inl ⟨[c], cs, rfl, by simp, .space ((isWs_iff c).1 hc) .nil⟩
    | false =>
      cases hcm : (c == '/' && startsWith (c :: cs) "//") with
      | false => exact .inr (.inr fun b => findToken_line hc hcm)
      | true =>
        simp only [Bool.and_eq_true] at hcm
        obtain ⟨r, hr⟩ : ∃ r, c :: cs = '/' :: '/' :: r := by
          have := hcm.2
          unfold startsWith at this
          rw [List.isPrefixOf_iff_prefix] at this
          obtain ⟨r, hr⟩ := this
          exact ⟨r, hr.symm⟩
        rw [hr]
        by_cases hn : '\n' ∈ r
        · obtain ⟨body, rest, h1, h2⟩ : ∃ body rest, r = body ++ '\n' :: rest ∧ '\n' ∉ body := by
            cases hp : newlinePos r with
            | none =>
              exfalso
              have : ∀ t : Text, newlinePos t = none → '\n' ∉ t := by
                intro t
                induction t with
                | nil => simp
                | cons x xs ih =>
                  intro h
                  unfold newlinePos at h
                  split at h
                  · cases h
                  · rename_i hx
                    rw [Option.map_eq_none_iff] at h
                    have := ih h
                    simp only [beq_iff_eq] at hx
                    simp only [List.mem_cons, not_or]
                    exact ⟨fun e => hx e.symm, this⟩
              exact this r hp hn
            | some pos =>
              obtain ⟨body, rest, h1, h2, _⟩ := newlinePos_split hp
              exact ⟨body, rest, h1, h2⟩
          exact .inl ⟨'/' :: '/' :: (body ++ ['\n']), rest, by rw [h1]; simp, by simp, .comment h2 .nil⟩
        · exact .inr (.inl ⟨r, rfl, hn⟩)

/-- Reading two texts with a newline between them reads the first and then the second. -/
theorem lexes_join {a b : Text} {ta tb : List (Kind × Text)} (ha : Lexes a ta) (hb : Lexes b tb) :
    ∃ ts, Lexes (a ++ '\n' :: b) ts ∧ ∀ n, placed n ts = placed n ta ++ placed (n + byteLen a + 1) tb := by
  generalize hn : a.length = m
  induction m using Nat.strongRecOn generalizing a ta with
  | ind m ih =>
    subst hn
    by_cases h0 : a = []
    · subst h0
      have : ta = [] := ha.unique (.nil _)
      subst this
      obtain ⟨ts, h1, h2⟩ := space_moves (c := '\n') (.inr (.inl rfl)) hb
      refine ⟨ts, h1, fun n => ?_⟩
      rw [h2]
      simp [placed, nl_size]
    · rcases begins a h0 with ⟨w, r, rfl, hw, ht⟩ | ⟨body, rfl, hbody⟩ | hf
      · obtain ⟨tr, hr⟩ := lexes_of_trivia ht ha
        have hlt : r.length < (w ++ r).length := by
          have := List.length_pos_iff.2 hw
          rw [List.length_append]; omega
        obtain ⟨ts1, h1, h2⟩ := ih _ hlt hr rfl
        obtain ⟨ts2, h3, h4⟩ := trivia_moves ht h1
        obtain ⟨ta', h5, h6⟩ := trivia_moves ht hr
        have := ha.unique h5
        subst this
        refine ⟨ts2, by simpa using h3, fun n => ?_⟩
        rw [h4, h2, h6, byteLen_append]
        congr 2
        omega
      · have htr : Trivia ('/' :: '/' :: (body ++ '\n' :: [])) := .comment hbody .nil
        obtain ⟨ts, h1, h2⟩ := trivia_moves htr hb
        have hl : Lexes ('/' :: '/' :: body) [(.COMMENT, '/' :: '/' :: body)] := by
          have := Steps.cons (u := '/' :: '/' :: body) (r := []) (k := .COMMENT) (by simp)
            (by rw [List.append_nil]; exact comment_token_at_end hbody) (.nil _)
          rwa [List.append_nil] at this
        have := ha.unique hl
        subst this
        refine ⟨ts, by simpa using h1, fun n => ?_⟩
        rw [h2, placed_trivia_comment]
        simp only [placed, List.nil_append, byteLen_cons, byteLen_append, byteLen_nil, nl_size]
        congr 1
      · unfold Lexes at ha
        cases ha with
        | nil => exact absurd rfl h0
        | @cons u r k ts' _ hu hk hrest =>
          have hlt : r.length < (u ++ r).length := by
            have := List.length_pos_iff.2 hu
            rw [List.length_append]; omega
          obtain ⟨ts1, h1, h2⟩ := ih _ hlt hrest rfl
          refine ⟨(k, u) :: ts1, ?_, fun n => ?_⟩
          · rw [List.append_assoc]
            refine .cons hu ?_ h1
            rw [← List.append_assoc, hf, hk]
          · simp only [placed]
            rw [h2, byteLen_append]
            have e : n + byteLen u + byteLen r + 1 = n + (byteLen u + byteLen r) + 1 := by omega
            rw [e]
            split <;> rfl

/-- If the lexer gets through two texts with a newline between them, it gets through each of them. -/
theorem lexes_split {a b : Text} {ts : List (Kind × Text)} (h : Lexes (a ++ '\n' :: b) ts) :
    (∃ ta, Lexes a ta) ∧ ∃ tb, Lexes b tb := by
  generalize hn : a.length = m
  induction m using Nat.strongRecOn generalizing a ts with
  | ind m ih =>
    subst hn
    by_cases h0 : a = []
    · subst h0
      exact ⟨⟨[], .nil _⟩, lexes_of_trivia (w := ['\n']) (.space (.inr (.inl rfl)) .nil) h⟩
    · rcases begins a h0 with ⟨w, r, rfl, hw, ht⟩ | ⟨body, rfl, hbody⟩ | hf
      · obtain ⟨tr, hr⟩ := lexes_of_trivia (b := r ++ '\n' :: b) ht (by simpa using h)
        have hlt : r.length < (w ++ r).length := by
          have := List.length_pos_iff.2 hw
          rw [List.length_append]; omega
        obtain ⟨⟨t1, h1⟩, h2⟩ := ih _ hlt hr rfl
        obtain ⟨t2, h3, _⟩ := trivia_moves ht h1
        exact ⟨⟨t2, h3⟩, h2⟩
      · refine ⟨⟨[(.COMMENT, '/' :: '/' :: body)], ?_⟩, ?_⟩
        · have := Steps.cons (u := '/' :: '/' :: body) (r := []) (k := .COMMENT) (by simp)
            (by rw [List.append_nil]; exact comment_token_at_end hbody) (.nil _)
          rwa [List.append_nil] at this
        · exact lexes_of_trivia (w := '/' :: '/' :: (body ++ '\n' :: [])) (.comment hbody .nil) (by simpa using h)
      · unfold Lexes at h
        generalize hx : a ++ '\n' :: b = x at h
        cases h with
        | nil => simp at hx
        | @cons u r k ts' _ hu hk hrest =>
          rw [← hx, hf] at hk
          have hle := findToken_le hk
          obtain ⟨s, rfl, hs⟩ : ∃ s, a = u ++ s ∧ r = s ++ '\n' :: b := by
            rcases List.append_eq_append_iff.1 hx with ⟨v, h1, h2⟩ | ⟨v, h1, h2⟩
            · -- `u` is longer than `a`
              have : v = [] := by
                rw [h1, byteLen_append] at hle
                cases v with
                | nil => rfl
                | cons d ds => have := utf8Size_pos d; rw [byteLen_cons] at hle; omega
              subst this
              exact ⟨[], by simpa using h1.symm, by simpa using h2.symm⟩
            · exact ⟨v, h1, h2⟩
          have hlt : s.length < (u ++ s).length := by
            have := List.length_pos_iff.2 hu
            rw [List.length_append]; omega
          subst hs
          obtain ⟨⟨t1, h1⟩, h2⟩ := ih _ hlt hrest rfl
          exact ⟨⟨(k, u) :: t1, .cons hu hk h1⟩, h2⟩

/-! ## The property -/

/-- C104: reading a text line by line finds the same tokens at the same places as reading all of it: no token reaches
over the end of a line, and none depends on another line. -/
theorem tokens_line_by_line (lines : List Text) (ts : List (Kind × Text)) (h : Lexes (joinLines lines) ts) (n : Nat) :
    LineTokens n lines (placed n ts) := by
  induction lines generalizing n ts with
  | nil =>
    have : ts = [] := h.unique (.nil _)
    subst this
    exact .nil n
  | cons l ls ih =>
    cases ls with
    | nil =>
      have := LineTokens.cons (n := n) h (.nil (n + byteLen l + 1))
      rwa [List.append_nil] at this
    | cons l2 ls =>
      have h' : Lexes (l ++ '\n' :: joinLines (l2 :: ls)) ts := h
      obtain ⟨⟨ta, ha⟩, ⟨tb, hb⟩⟩ := lexes_split h'
      obtain ⟨ts2, h2, h3⟩ := lexes_join ha hb
      have := h'.unique h2
      subst this
      rw [h3]
      exact .cons ha (ih tb hb _)

/-- C104: the lexer gets through a text exactly if it gets through each line. -/
theorem lexes_iff_lines (lines : List Text) :
    (∃ ts, Lexes (joinLines lines) ts) ↔ ∀ l, l ∈ lines → ∃ tl, Lexes l tl := by
  induction lines with
  | nil => exact ⟨fun _ => by simp, fun _ => ⟨[], .nil _⟩⟩
  | cons l ls ih =>
    cases ls with
    | nil => simp [joinLines]
    | cons l2 ls =>
      constructor
      · rintro ⟨ts, h⟩
        obtain ⟨h1, h2⟩ := lexes_split (a := l) (b := joinLines (l2 :: ls)) h
        intro x hx
        rcases List.mem_cons.1 hx with rfl | hx
        · exact h1
        · exact ih.1 h2 x hx
      · intro h
        obtain ⟨ta, ha⟩ := h l (List.mem_cons_self ..)
        obtain ⟨tb, hb⟩ := ih.2 fun x hx => h x (List.mem_cons_of_mem _ hx)
        obtain ⟨ts, h1, _⟩ := lexes_join ha hb
        exact ⟨ts, h1⟩

theorem placed_shift (ts : List (Kind × Text)) (n d : Nat) :
    placed (n + d) ts = (placed n ts).map fun x => (x.1 + d, x.2) := by
  induction ts generalizing n with
  | nil => rfl
  | cons x xs ih =>
    obtain ⟨k, u⟩ := x
    have e : n + d + byteLen u = n + byteLen u + d := by omega
    simp only [placed]
    split
    · rw [e, ih]
    · rw [e, ih]; rfl

/-- C104: an edit within lines leaves the tokens of the lines above where they were, and moves those of the lines below
by the change of the length. -/
theorem edit_keeps_other_lines (above old new below : Text) (ts ts' : List (Kind × Text))
    (h : Lexes (above ++ '\n' :: (old ++ '\n' :: below)) ts) (h' : Lexes (above ++ '\n' :: (new ++ '\n' :: below)) ts') :
    ∃ head mid mid' tail, placed 0 ts = head ++ mid ++ tail.map (fun x => (x.1 + byteLen old, x.2)) ∧
      placed 0 ts' = head ++ mid' ++ tail.map (fun x => (x.1 + byteLen new, x.2)) ∧
      (∃ ta, Lexes above ta ∧ head = placed 0 ta) ∧
      (∃ tb, Lexes below tb ∧ tail = placed (byteLen above + 2) tb) ∧
      (∃ tm, Lexes old tm ∧ mid = placed (byteLen above + 1) tm) ∧
      (∃ tm, Lexes new tm ∧ mid' = placed (byteLen above + 1) tm) := by
  obtain ⟨⟨ta, ha⟩, ⟨t1, h1⟩⟩ := lexes_split h
  obtain ⟨_, ⟨t1', h1'⟩⟩ := lexes_split h'
  obtain ⟨⟨tm, hm⟩, ⟨tb, hb⟩⟩ := lexes_split h1
  obtain ⟨⟨tm', hm'⟩, _⟩ := lexes_split h1'
  have key : ∀ (mid : Text) (tm u : List (Kind × Text)), Lexes mid tm → Lexes (above ++ '\n' :: (mid ++ '\n' :: below)) u →
      placed 0 u = placed 0 ta ++ placed (byteLen above + 1) tm ++
        (placed (byteLen above + 2) tb).map (fun x => (x.1 + byteLen mid, x.2)) := by
    intro mid tm u hm hu
    obtain ⟨v, hv, pv⟩ := lexes_join hm hb
    obtain ⟨w, hw, pw⟩ := lexes_join ha hv
    have := hu.unique hw
    subst this
    rw [pw, pv, ← placed_shift, List.append_assoc]
    congr 2
    · congr 1; omega
    · congr 1; omega
  exact ⟨_, _, _, _, key _ _ _ hm h, key _ _ _ hm' h', ⟨ta, ha, rfl⟩, ⟨tb, hb, rfl⟩, ⟨tm, hm, rfl⟩, ⟨tm', hm', rfl⟩⟩

/-- Within a line this is false: one more character at the end changes two tokens. -/
theorem within_a_line : Lexes "1u12".toList [(.INTEGER_NUMBER, "1".toList), (.IDENT, "u12".toList)] ∧
    Lexes "1u128".toList [(.INTEGER_NUMBER, "1u128".toList)] :=
  ⟨.cons (u := "1".toList) (r := "u12".toList) (by decide) (by decide +kernel)
      (.cons (u := "u12".toList) (r := []) (by decide) (by decide +kernel) (.nil _)),
    .cons (u := "1u128".toList) (r := []) (by decide) (by decide +kernel) (.nil _)⟩

/-- A text of three lines with a comment and a byte string that meets the hypotheses. -/
example : ∃ ts, Lexes (joinLines ["x // c".toList, "b\"a\" 0x".toList, []]) ts ∧
    LineTokens 0 ["x // c".toList, "b\"a\" 0x".toList, []] (placed 0 ts) := by
  obtain ⟨ts, h⟩ := (lexes_iff_lines ["x // c".toList, "b\"a\" 0x".toList, []]).2 (by
    intro l hl
    simp only [List.mem_cons, List.not_mem_nil, or_false] at hl
    rcases hl with rfl | rfl | rfl
    · exact ⟨[(.IDENT, "x".toList), (.WHITESPACE, " ".toList), (.COMMENT, "// c".toList)],
        .cons (u := "x".toList) (r := " // c".toList) (by decide) (by decide +kernel)
          (.cons (u := " ".toList) (r := "// c".toList) (by decide) (by decide +kernel)
            (.cons (u := "// c".toList) (r := []) (by decide) (by decide +kernel) (.nil _)))⟩
    · exact ⟨[(.BYTE_STRING, "b\"a\"".toList), (.WHITESPACE, " ".toList), (.INTEGER_NUMBER, "0".toList), (.IDENT, "x".toList)],
        .cons (u := "b\"a\"".toList) (r := " 0x".toList) (by decide) (by decide +kernel)
          (.cons (u := " ".toList) (r := "0x".toList) (by decide) (by decide +kernel)
            (.cons (u := "0".toList) (r := "x".toList) (by decide) (by decide +kernel)
              (.cons (u := "x".toList) (r := []) (by decide) (by decide +kernel) (.nil _))))⟩
    · exact ⟨[], .nil _⟩)
  exact ⟨ts, h, tokens_line_by_line _ ts h 0⟩

end Verif.Lexer.Lines
