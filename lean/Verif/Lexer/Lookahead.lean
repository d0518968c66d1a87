import Verif.Lexer.Trivia

set_option autoImplicit false

/-! The lookahead of one token agrees with the next `bump`. -/

namespace Verif.Lexer

theorem wsRun_eq (t : Text) : wsRun t = byteLen (t.takeWhile isWs) := by
  induction t with
  | nil => rfl
  | cons c cs ih =>
    simp only [wsRun, List.takeWhile_cons]
    split
    · rename_i h
      rw [byteLen_cons, isWs_ascii h, ih]; omega
    · rfl

/-- `trim_start` removes what the lexer reads as whitespace. -/
theorem isUnicodeWs_of_isWs {c : Char} (h : isWs c = true) : isUnicodeWs c = true := by
  unfold isWs at h
  simp only [Bool.or_eq_true, beq_iff_eq] at h
  rcases h with (rfl | rfl) | rfl <;> decide

/-- No token but whitespace starts with a whitespace character. -/
theorem findToken_unicodeWs {c : Char} {cs : Text} (hc : isUnicodeWs c = true)
    (hw : isWs c = false) : findToken (c :: cs) = none := by
  have hval : c.val.toNat ≤ 32 ∨ 128 ≤ c.val.toNat := by
    unfold isUnicodeWs at hc
    simp only [Bool.or_eq_true, Bool.and_eq_true, decide_eq_true_eq, beq_iff_eq] at hc
    omega
  have hstart : ∀ d : Char, 33 ≤ d.val.toNat → d.val.toNat < 128 → c ≠ d := by
    rintro d h1 h2 rfl; omega
  unfold findToken
  simp only
  rw [hw]
  have h1 : (c == '/') = false := by
    simp only [beq_eq_false_iff_ne, ne_eq]
    exact hstart '/' (by decide) (by decide)
  have h2 : isDigit c = false := by
    cases h : isDigit c with
    | false => rfl
    | true =>
      unfold isDigit at h
      simp only [Bool.and_eq_true, decide_eq_true_eq] at h
      have a := le_toNat h.1
      have b := le_toNat h.2
      have : ('0' : Char).val.toNat = 48 := rfl
      have : ('9' : Char).val.toNat = 57 := rfl
      omega
  have h3 : isNameStart c = false := by
    cases h : isNameStart c with
    | false => rfl
    | true =>
      have hs := (utf8Size_eq_one_iff c).1 (isNameStart_ascii h)
      unfold isNameStart at h
      simp only [Bool.or_eq_true, Bool.and_eq_true, decide_eq_true_eq, beq_iff_eq] at h
      have hA : ('A' : Char).val.toNat = 65 := rfl
      have ha : ('a' : Char).val.toNat = 97 := rfl
      have hu : ('_' : Char).val.toNat = 95 := rfl
      rcases h with (h | h) | h
      · have := le_toNat h.1; omega
      · have := le_toNat h.1; omega
      · subst h; omega
  simp only [h1, h2, h3, Bool.false_and, Bool.false_eq_true, if_false]
  unfold punct
  have : punctTable.find? (fun e => startsWith (c :: cs) e.1) = none := by
    rw [List.find?_eq_none]
    intro e he hs
    have htab : ∀ e ∈ punctTable, ∃ d r, e.1.toList = d :: r ∧ 33 ≤ d.val.toNat ∧ d.val.toNat < 128 := by
      have : ∀ e ∈ punctTable, (match e.1.toList with
          | [] => false
          | d :: _ => decide (33 ≤ d.val.toNat) && decide (d.val.toNat < 128)) = true := by
        decide +kernel
      intro e he
      have h := this e he
      cases hl : e.1.toList with
      | nil => rw [hl] at h; cases h
      | cons d r =>
        rw [hl] at h
        simp only [Bool.and_eq_true, decide_eq_true_eq] at h
        exact ⟨d, r, rfl, h.1, h.2⟩
    obtain ⟨d, r, hl, h1, h2⟩ := htab e he
    unfold startsWith at hs
    rw [hl, List.isPrefixOf_cons_cons, Bool.and_eq_true, beq_iff_eq] at hs
    exact hstart d h1 h2 hs.1.symm
  rw [this]
  rfl

theorem dropWhile_dropWhile_sub {p q : Char → Bool} (h : ∀ c, p c = true → q c = true) (t : Text) :
    (t.dropWhile p).dropWhile q = t.dropWhile q := by
  induction t with
  | nil => rfl
  | cons c cs ih =>
    cases hp : p c with
    | true => rw [List.dropWhile_cons, if_pos hp, ih, List.dropWhile_cons, if_pos (h c hp)]
    | false =>
      rw [List.dropWhile_cons, if_neg (by simp [hp])]

/-- If the lookahead is not trivia and the next token can be read, it is the lookahead. -/
theorem lookahead_bump {lx lx' : Lexer} {t : Token} (h1 : lx.lookahead = some t)
    (ht : t.kind.isTrivia = false) (h2 : lx.bump = some lx') : lx'.token.kind = t.kind := by
  unfold Lexer.lookahead at h1
  rw [bump_eq] at h2
  cases hs : sliceFrom lx.text lx.curEnd with
  | none => rw [hs] at h2; cases h2
  | some rest =>
    rw [hs] at h1 h2
    simp only at h1 h2
    rw [Option.map_eq_some_iff] at h1
    obtain ⟨⟨k, n⟩, hf, rfl⟩ := h1
    simp only at ht ⊢
    cases hf2 : findToken rest with
    | none => rw [hf2] at h2; cases h2
    | some kl =>
      obtain ⟨k', n'⟩ := kl
      rw [hf2] at h2
      simp only at h2
      cases rest with
      | nil =>
        rw [List.dropWhile_nil, hf2] at hf
        cases hf
        rw [ht] at h2
        cases h2
        rfl
      | cons c cs =>
        cases hu : isUnicodeWs c with
        | false =>
          rw [List.dropWhile_cons, if_neg (by simp [hu]), hf2] at hf
          cases hf
          rw [ht] at h2
          cases h2
          rfl
        | true =>
          cases hw : isWs c with
          | false => rw [findToken_unicodeWs hu hw] at hf2; cases hf2
          | true =>
            have hk : (k', n') = (Kind.WHITESPACE, wsRun (c :: cs)) := by
              unfold findToken at hf2
              simp only [hw, if_true] at hf2
              cases hf2; rfl
            cases hk
            rw [if_pos (by rfl : Kind.isTrivia .WHITESPACE = true)] at h2
            rw [bump_eq] at h2
            simp only [Lexer.advanceWithToken] at h2
            obtain ⟨p, hp, hlen⟩ := sliceFrom_some hs
            have hsl : sliceFrom lx.text (byteLen lx.text - byteLen (c :: cs) + wsRun (c :: cs))
                = some ((c :: cs).dropWhile isWs) := by
              rw [hp, byteLen_append, Nat.add_sub_cancel]
              have := sliceFrom_prefix (p ++ (c :: cs).takeWhile isWs) ((c :: cs).dropWhile isWs)
              rw [byteLen_append, ← wsRun_eq, List.append_assoc,
                List.takeWhile_append_dropWhile] at this
              exact this
            rw [hsl] at h2
            simp only at h2
            rw [← dropWhile_dropWhile_sub (p := isWs) (fun _ => isUnicodeWs_of_isWs)] at hf
            cases hf3 : findToken ((c :: cs).dropWhile isWs) with
            | none => rw [hf3] at h2; cases h2
            | some kl =>
              obtain ⟨k3, n3⟩ := kl
              have hsame : ((c :: cs).dropWhile isWs).dropWhile isUnicodeWs
                  = (c :: cs).dropWhile isWs := by
                have hhead := List.head?_dropWhile_not isWs (c :: cs)
                cases hd : (c :: cs).dropWhile isWs with
                | nil => rfl
                | cons d ds =>
                  rw [hd] at hhead hf3
                  have hdw : isWs d = false := by simpa using hhead
                  cases hdu : isUnicodeWs d with
                  | false => rw [List.dropWhile_cons, if_neg (by simp [hdu])]
                  | true => rw [findToken_unicodeWs hdu hdw] at hf3; cases hf3
              rw [hsame, hf3] at hf
              cases hf
              rw [hf3] at h2
              simp only at h2
              rw [ht] at h2
              cases h2
              rfl

/-- At the end of the input the lookahead is the end of the input. -/
theorem lookahead_eof {lx : Lexer} {done : List (Kind × Text)} {rest : Text} {t : Token}
    (hv : Valid lx done rest) (he : lx.token.kind = .EOF) (h : lx.lookahead = some t) :
    t.kind = .EOF := by
  have hr : rest = [] := (findToken_eof_iff hv.cur).1 he
  subst hr
  have hlen := hv.cur
  rw [he] at hlen
  have h0 := (findToken_nil hlen).2
  have hend : lx.curEnd = byteLen lx.text := by
    have h1 := hv.start; have h2 := hv.stop; simp at h1; omega
  unfold Lexer.lookahead at h
  rw [hend] at h
  have := sliceFrom_prefix lx.text []
  rw [List.append_nil] at this
  rw [this] at h
  cases h
  rfl

end Verif.Lexer
