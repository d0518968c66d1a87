import Verif.Lexer.Lemmas

set_option autoImplicit false

/-!
C29 (tokens cover the text), C38 (keywords and identifiers), C39 (trivia), C53 (punctuation),
C54 (number literals).
-/

namespace Verif.Lexer

/-! ### C29 -/

theorem reads_valid {t : Text} {lx : Lexer} (h : Reads t lx) :
    ∃ done rest, Valid lx done rest ∧ lx.text = t := by
  induction h with
  | new h => exact ⟨[], _, (new_valid h).1, (new_valid h).2⟩
  | bump _ hne hb ih =>
    obtain ⟨done, rest, hv, ht⟩ := ih
    obtain ⟨u, triv, rest', _, _, _, _, hv', _, ht'⟩ := bump_valid hv hne hb
    exact ⟨_, _, hv', ht'.trans ht⟩

/-- **C29.**  When the lexer has reached the end of the input, the tokens it has recorded are
the pieces of the text: their texts concatenate to the input, each has its recorded length, and
none but the final end-of-input token is empty. -/
theorem tokens_cover_text {t : Text} {lx : Lexer} (h : Reads t lx) (heof : lx.token.kind = .EOF) :
    ∃ ts : List (Kind × Text), Lexes t ts ∧ (ts.map Prod.snd).flatten = t ∧
      lx.allTokens = ts.map (fun x => ⟨x.1, byteLen x.2⟩) ++ [⟨.EOF, 0⟩] ∧
      ∀ x ∈ ts, x.2 ≠ [] ∧ x.1 ≠ .EOF := by
  obtain ⟨done, rest, hv, ht⟩ := reads_valid h
  have hr : rest = [] := (findToken_eof_iff hv.cur).1 heof
  subst hr
  have hs := hv.steps
  rw [ht] at hs
  have hcur := findToken_nil hv.cur
  refine ⟨done, hs, ?_, ?_, ?_⟩
  · have := hs.text; simpa using this.symm
  · rw [hv.all]
    congr 2
    cases htok : lx.token with
    | mk k n => rw [htok] at hcur; simp only at hcur; rw [hcur.1, hcur.2]
  · intro x hx
    have := hs.kinds x hx
    exact ⟨this.2, isTokenKind_ne_eof this.1⟩

/-- A token sequence is followed by the lexer: from a state whose remaining tokens are known,
`bump` succeeds. -/
theorem bump_total {lx : Lexer} {done ts : List (Kind × Text)} {rest : Text}
    (hv : Valid lx done rest) (hl : Lexes rest ts) (hne : lx.token.kind ≠ .EOF) :
    ∃ lx', lx.bump = some lx' := by
  induction hl' : ts generalizing lx done rest ts with
  | nil =>
    subst hl'
    cases hl with
    | nil => exact absurd ((findToken_eof_iff hv.cur).2 rfl) hne
  | cons x ts' ih =>
    subst hl'
    cases hl with
    | @cons u r k _ _ hu hf hr =>
      have hc := hv.cur
      rw [hf] at hc
      injection hc with hc
      injection hc with hk hlen
      have hslice : sliceFrom lx.text lx.curEnd = some r := by
        have h1 := hv.steps.text
        have h2 := hv.start
        have h3 := hv.stop
        have h4 := congrArg byteLen h1
        rw [byteLen_append, byteLen_append] at h4
        rw [byteLen_append] at h2
        rw [h1, ← List.append_assoc,
          show lx.curEnd = byteLen ((done.map Prod.snd).flatten ++ u) by
            rw [byteLen_append]; omega]
        exact sliceFrom_prefix _ _
      rw [bump_eq, hslice]
      simp only
      obtain ⟨k2, l2, hf2⟩ := Lexes.findToken_total hr
      rw [hf2]
      simp only
      split
      · rename_i htriv
        have hv' := advance_valid hv hlen hne hf2
        exact ih hv' hr (by simp only [Lexer.advanceWithToken]; rintro rfl; cases htriv) rfl
      · exact ⟨_, rfl⟩

/-- The converse of `tokens_cover_text`: when the text splits into tokens, the lexer reads it to
the end. -/
theorem reads_to_end {t : Text} {ts : List (Kind × Text)} (h : Lexes t ts) :
    ∃ lx, Reads t lx ∧ lx.token.kind = .EOF := by
  have hnew : ∃ lx, new t = some lx := by
    obtain ⟨k, l, hf⟩ := h.findToken_total
    unfold new
    rw [hf]
    exact ⟨_, rfl⟩
  obtain ⟨lx0, h0⟩ := hnew
  suffices H : ∀ (n : Nat) (lx : Lexer) (done : List (Kind × Text)) (rest : Text)
      (ts : List (Kind × Text)), ts.length ≤ n → Valid lx done rest → Lexes rest ts →
      Reads t lx → ∃ lx', Reads t lx' ∧ lx'.token.kind = .EOF by
    exact H ts.length lx0 [] t ts (Nat.le_refl _) (new_valid h0).1 h (.new h0)
  intro n
  induction n with
  | zero =>
    intro lx done rest ts hn hv hl hr
    have : ts = [] := List.length_eq_zero_iff.1 (by omega)
    subst this
    cases hl with
    | nil => exact ⟨lx, hr, (findToken_eof_iff hv.cur).2 rfl⟩
  | succ n ih =>
    intro lx done rest ts hn hv hl hr
    by_cases heof : lx.token.kind = .EOF
    · exact ⟨lx, hr, heof⟩
    · obtain ⟨lx', hb⟩ := bump_total hv hl heof
      obtain ⟨u, triv, rest', h1, h2, h3, _, hv', _, _⟩ := bump_valid hv heof hb
      -- the tokens after the current one
      have hsteps : Steps rest ((lx.token.kind, u) :: triv) rest' := by
        obtain ⟨hs', hs⟩ := And.intro hv'.steps hv.steps
        have htxt : lx'.text = lx.text := by
          have := bump_valid hv heof hb
          obtain ⟨_, _, _, _, _, _, _, _, _, h⟩ := this
          exact h
        rw [htxt] at hs'
        exact hs.cancel hs'
      have hl' : ∃ ts', Lexes rest' ts' ∧ ts'.length ≤ n := by
        obtain ⟨ys, h1, h2⟩ := hsteps.lexes_rest hl
        refine ⟨ys, h2, ?_⟩
        rw [h1] at hn
        simp at hn
        omega
      obtain ⟨ts', hl', hn'⟩ := hl'
      exact ih lx' _ rest' ts' hn' hv' hl' (.bump hr heof hb)

theorem lexes_module : Lexes "module M".toList
    [(.MODULE_KW, "module".toList), (.WHITESPACE, " ".toList), (.IDENT, "M".toList)] := by
  refine .cons (u := "module".toList) (r := " M".toList) (by decide) (by rfl) ?_
  refine .cons (u := " ".toList) (r := "M".toList) (by decide) (by rfl) ?_
  exact .cons (u := "M".toList) (r := []) (by decide) (by rfl) (.nil _)

/-- The hypotheses of `tokens_cover_text` are met by a concrete text. -/
example : ∃ lx, Reads "module M".toList lx ∧ lx.token.kind = .EOF := reads_to_end lexes_module

/-! ### C38 -/

theorem isDigit_eq (c : Char) : isDigit c = c.isDigit := by
  unfold isDigit Char.isDigit
  rw [Bool.eq_iff_iff]
  simp only [Bool.and_eq_true, decide_eq_true_eq]
  exact Iff.rfl

theorem isNameStart_eq (c : Char) : isNameStart c = wordStart c := by
  unfold isNameStart wordStart Char.isAlpha Char.isUpper Char.isLower
  rw [Bool.eq_iff_iff]
  simp only [Bool.or_eq_true, Bool.and_eq_true, decide_eq_true_eq]
  exact Iff.rfl

theorem isNameChar_eq (c : Char) : isNameChar c = wordChar c := by
  unfold isNameChar wordChar Char.isAlphanum
  rw [isNameStart_eq, isDigit_eq]
  unfold wordStart
  cases c.isAlpha <;> cases c.isDigit <;> cases c == '_' <;> rfl

theorem takeWhile_run {p : Char → Bool} {w rest : Text} (hw : ∀ c ∈ w, p c = true)
    (hr : ∀ c, rest.head? = some c → p c = false) : (w ++ rest).takeWhile p = w := by
  induction w with
  | nil =>
    cases rest with
    | nil => rfl
    | cons c cs => simp [hr c rfl]
  | cons c cs ih =>
    simp only [List.cons_append, List.takeWhile_cons, hw c (List.mem_cons_self ..), if_true]
    rw [ih (fun x hx => hw x (List.mem_cons_of_mem _ hx))]

theorem nameStart_not_ws {c : Char} (h : isNameStart c = true) :
    isWs c = false ∧ (c == '/') = false ∧ isDigit c = false := by
  have hlo : 65 ≤ c.val.toNat := by
    unfold isNameStart at h
    simp only [Bool.or_eq_true, Bool.and_eq_true, decide_eq_true_eq, beq_iff_eq] at h
    have hA : ('A' : Char).val.toNat = 65 := rfl
    have ha : ('a' : Char).val.toNat = 97 := rfl
    rcases h with (⟨h, _⟩ | ⟨h, _⟩) | h
    · have := le_toNat h; omega
    · have := le_toNat h; omega
    · subst h; decide
  have hne : ∀ d : Char, d.val.toNat < 65 → (c == d) = false := by
    intro d hd
    rw [beq_eq_false_iff_ne]
    rintro rfl
    omega
  refine ⟨?_, hne '/' (by decide), ?_⟩
  · unfold isWs
    rw [hne ' ' (by decide), hne '\n' (by decide), hne '\t' (by decide)]
    rfl
  · unfold isDigit
    cases hd : decide (c ≤ '9') with
    | false => simp
    | true =>
      have := le_toNat (of_decide_eq_true hd)
      have h9 : ('9' : Char).val.toNat = 57 := rfl
      omega

theorem keyword_table (w : Text) (k : Kind) :
    Kind.fromKeyword w = some k ↔ ∃ s, (s, k) ∈ keywordKinds ∧ s.toList = w := by
  have htab : Kind.keywords = keywordKinds.map (fun e => (e.1.toList, e.2)) := by decide +kernel
  constructor
  · intro h
    have := (fromKeyword_tokenKind h).2.2
    rw [htab, List.mem_map] at this
    obtain ⟨e, he, heq⟩ := this
    injection heq with h1 h2
    exact ⟨e.1, by rw [← h2]; exact he, h1⟩
  · rintro ⟨s, hm, rfl⟩
    have : ∀ e ∈ keywordKinds, Kind.fromKeyword e.1.toList = some e.2 := by decide +kernel
    exact this _ hm

/-- The token of a maximal word that is not the start of a byte string. -/
theorem word_token {c : Char} {w rest : Text} (hc : wordStart c = true)
    (hw : ∀ x ∈ w, wordChar x = true) (hr : ∀ x, rest.head? = some x → wordChar x = false)
    (hq : ¬ ((c :: w = ['x'] ∨ c :: w = ['b']) ∧ rest.head? = some '"')) :
    findToken (c :: w ++ rest)
      = some ((Kind.fromKeyword (c :: w)).getD .IDENT, byteLen (c :: w)) := by
  rw [← isNameStart_eq] at hc
  have hrun : ((c :: w) ++ rest).takeWhile isNameChar = c :: w := by
    apply takeWhile_run
    · intro x hx
      rw [List.mem_cons] at hx
      rcases hx with rfl | hx
      · unfold isNameChar; rw [hc]; rfl
      · rw [isNameChar_eq]; exact hw x hx
    · intro x hx; rw [isNameChar_eq]; exact hr x hx
  obtain ⟨h1, h2, h3⟩ := nameStart_not_ws hc
  have hs : (startsWith (c :: (w ++ rest)) "x\"" || startsWith (c :: (w ++ rest)) "b\"") = false := by
    have hnq : wordChar '"' = false := by decide
    have aux : ∀ (d : Char), startsWith (c :: (w ++ rest)) (String.ofList [d, '"']) = true →
        c :: w = [d] ∧ rest.head? = some '"' := by
      intro d h
      unfold startsWith at h
      rw [List.isPrefixOf_iff_prefix] at h
      simp only [String.toList_ofList, List.cons_prefix_cons] at h
      obtain ⟨rfl, h⟩ := h
      cases w with
      | nil =>
        refine ⟨rfl, ?_⟩
        cases rest with
        | nil => simp at h
        | cons y ys => simp only [List.nil_append, List.cons_prefix_cons] at h; rw [← h.1]; rfl
      | cons y ys =>
        simp only [List.cons_append, List.cons_prefix_cons] at h
        have := hw y (List.mem_cons_self ..)
        rw [← h.1, hnq] at this
        cases this
    cases ha : startsWith (c :: (w ++ rest)) "x\"" with
    | true => exact absurd ⟨.inl (aux 'x' ha).1, (aux 'x' ha).2⟩ hq
    | false =>
      cases hb : startsWith (c :: (w ++ rest)) "b\"" with
      | true => exact absurd ⟨.inr (aux 'b' hb).1, (aux 'b' hb).2⟩ hq
      | false => rfl
  show findToken (c :: (w ++ rest)) = _
  unfold findToken
  simp only
  rw [h1, h2, h3, hc]
  simp only [Bool.false_eq_true, if_false, Bool.false_and, if_true]
  rw [name_spec hs]
  rw [show c :: (w ++ rest) = (c :: w) ++ rest from rfl, hrun]

/-- **C38.**  A maximal word that is a keyword of the language is one token of the keyword's
kind, and any other maximal word is one identifier token (unless it is the `x` or `b` of a byte
string). -/
theorem word_is_keyword_or_identifier {c : Char} {w rest : Text} (hc : wordStart c = true)
    (hw : ∀ x ∈ w, wordChar x = true) (hr : ∀ x, rest.head? = some x → wordChar x = false)
    (hq : ¬ ((c :: w = ['x'] ∨ c :: w = ['b']) ∧ rest.head? = some '"')) :
    (∀ s k, (s, k) ∈ keywordKinds → s.toList = c :: w →
        findToken (c :: w ++ rest) = some (k, byteLen (c :: w))) ∧
    ((∀ s k, (s, k) ∈ keywordKinds → s.toList ≠ c :: w) →
        findToken (c :: w ++ rest) = some (.IDENT, byteLen (c :: w))) := by
  rw [word_token hc hw hr hq]
  constructor
  · intro s k hm hs
    rw [(keyword_table (c :: w) k).2 ⟨s, hm, hs⟩]
    rfl
  · intro h
    cases hk : Kind.fromKeyword (c :: w) with
    | none => rfl
    | some k =>
      obtain ⟨s, hm, hs⟩ := (keyword_table _ _).1 hk
      exact absurd hs (h s k hm)

example : findToken "modules {".toList = some (.IDENT, 7) := by
  have := (word_is_keyword_or_identifier (c := 'm') (w := "odules".toList) (rest := " {".toList)
    (by decide) (by decide) (by simp; decide) (by decide)).2
    (by
      have : ∀ e ∈ keywordKinds, e.1.toList ≠ 'm' :: "odules".toList := by decide
      intro s k h
      exact this _ h)
  exact this

/-! ### C53 -/

theorem prefix_of_longer {a b t : List Char} (ha : a <+: t) (hb : b <+: t) (h : a.length ≤ b.length) :
    a <+: b := List.prefix_of_prefix_length_le ha hb h

/-- **C53.**  Punctuation is read by longest match: the token is the longest symbol of the
language that is a prefix of the text. -/
theorem punctuation_longest_match {t : Text} {k : Kind} {n : Nat} (h : findToken t = some (k, n))
    (hk : ∃ s, (s, k) ∈ punctuation) :
    ∃ s, (s, k) ∈ punctuation ∧ s.toList <+: t ∧ n = s.toList.length ∧
      ∀ s' k', (s', k') ∈ punctuation → s'.toList <+: t → s'.toList.length ≤ s.toList.length := by
  -- the token comes from the punctuation arms
  have hp : punct t = some (k, n) := by
    have hkp : k.toNat ≤ 38 ∧ 2 ≤ k.toNat := by
      obtain ⟨s, hs⟩ := hk
      have : ∀ e ∈ punctuation, e.2.toNat ≤ 38 ∧ 2 ≤ e.2.toNat := by decide +kernel
      exact this _ hs
    cases t with
    | nil => cases h; exact absurd hkp.2 (by decide)
    | cons c cs =>
      unfold findToken at h
      simp only at h
      split at h
      · cases h; exact absurd hkp.1 (by decide)
      · split at h
        · split at h <;> (cases h; exact absurd hkp.1 (by decide))
        · split at h
          · rename_i hd
            obtain ⟨m, hm, _⟩ := number_spec (cs := cs) hd
            rw [hm] at h
            cases h; exact absurd hkp.1 (by decide)
          · split at h
            · cases hs : (startsWith (c :: cs) "x\"" || startsWith (c :: cs) "b\"") with
              | true =>
                unfold nameOrByteString at h
                rw [hs] at h
                simp only [if_true] at h
                split at h
                · cases h; exact absurd hkp.1 (by decide)
                · cases h
              | false =>
                rw [name_spec hs] at h
                injection h with h
                injection h with h _
                cases hk : Kind.fromKeyword ((c :: cs).takeWhile isNameChar) with
                | none => rw [hk] at h; subst h; exact absurd hkp.1 (by decide)
                | some k' =>
                  rw [hk] at h
                  have hm := (fromKeyword_tokenKind hk).2.2
                  have : ∀ e ∈ Kind.keywords, 38 < e.2.toNat := by decide +kernel
                  have := this _ hm
                  simp only [Option.getD_some] at h
                  subst h
                  simp only at this
                  omega
            · exact h
  unfold punct at hp
  rw [Option.map_eq_some_iff] at hp
  obtain ⟨⟨lit, e⟩, he, hp⟩ := hp
  simp only at hp
  subst hp
  have hm := List.mem_of_find?_eq_some he
  have hpre : lit.toList <+: t := by
    have := List.find?_some he
    simp only [startsWith] at this
    exact List.isPrefixOf_iff_prefix.1 this
  have htab1 : ∀ e ∈ punctTable, (e.1, e.2.1) ∈ punctuation ∧ e.2.2 = e.1.toList.length := by
    decide +kernel
  refine ⟨lit, (htab1 _ hm).1, hpre, (htab1 _ hm).2, ?_⟩
  intro s' k' hm' hpre'
  -- the entry of the other symbol is not earlier in the table
  by_cases hle : s'.toList.length ≤ lit.toList.length
  · exact hle
  · exfalso
    have hsub : lit.toList <+: s'.toList := prefix_of_longer hpre hpre' (by omega)
    rw [List.find?_eq_some_iff_append] at he
    obtain ⟨_, as, bs, htab, has⟩ := he
    have hin : ∃ n', (s', k', n') ∈ punctTable := by
      have : ∀ e ∈ punctuation, ∃ x ∈ punctTable, x.1 = e.1 ∧ x.2.1 = e.2 := by decide +kernel
      obtain ⟨⟨x1, x2, x3⟩, hx, h1, h2⟩ := this _ hm'
      simp only at h1 h2
      subst h1; subst h2
      exact ⟨x3, hx⟩
    obtain ⟨n', hin⟩ := hin
    have hpw : punctTable.Pairwise (fun a b => ¬ (a.1.toList.isPrefixOf b.1.toList = true)) := by
      decide +kernel
    rw [htab] at hin hpw
    rw [List.mem_append, List.mem_cons] at hin
    rcases hin with hin | hin | hin
    · have := has _ hin
      simp only [startsWith, Bool.not_eq_true', ← Bool.not_eq_true] at this
      exact this (List.isPrefixOf_iff_prefix.2 hpre')
    · injection hin with h1 _
      rw [h1] at hle
      omega
    · rw [List.pairwise_append] at hpw
      have := List.rel_of_pairwise_cons hpw.2.1 hin
      exact this (List.isPrefixOf_iff_prefix.2 hsub)

example : findToken "<==>x".toList = some (.LT_EQ_EQ_GT, 4) := rfl

/-- A symbol can swallow the start of a word: `&mutable` is read as `&mut` followed by the
identifier `able`. -/
theorem amp_mut_splits_word : Lexes "&mutable".toList
    [(.AMP_MUT, "&mut".toList), (.IDENT, "able".toList)] := by
  refine .cons (u := "&mut".toList) (r := "able".toList) (by decide) (by rfl) ?_
  exact .cons (u := "able".toList) (r := []) (by decide) (by rfl) (.nil _)

/-- The underscore is an identifier for the lexer; it never produces the wildcard token. -/
theorem underscore_is_identifier {rest : Text} (hr : ∀ x, rest.head? = some x → wordChar x = false) :
    findToken ('_' :: rest) = some (.IDENT, 1) := by
  have := word_token (c := '_') (w := []) (rest := rest) (by decide) (by simp) hr (by simp)
  exact this

end Verif.Lexer
