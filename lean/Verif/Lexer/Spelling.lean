import Verif.Lexer.Props

set_option autoImplicit false

/-!
C80: every token is spelled as its kind says, and the spelling determines the kind.
-/

namespace Verif.Lexer

namespace Spec

/-- The type that may be written directly behind a number. -/
def numberSuffixes : List String := ["", "u8", "u64", "u128"]

/-- A decimal digit. -/
def Digit (c : Char) : Prop := c.isDigit = true

/-- A hexadecimal digit. -/
def HexDigit (c : Char) : Prop := c.isDigit = true ∨ ('a' ≤ c ∧ c ≤ 'f') ∨ ('A' ≤ c ∧ c ≤ 'F')

/-- The inside of a byte string: no quote, no newline, and each backslash with the character behind it. -/
inductive Quoted : Text → Prop where
  | nil : Quoted []
  | char {c : Char} {w : Text} : c ≠ '"' → c ≠ '\\' → c ≠ '\n' → Quoted w → Quoted (c :: w)
  | escape {c : Char} {w : Text} : c ≠ '\n' → Quoted w → Quoted ('\\' :: c :: w)

/-- `Spelled k u`: the text `u` is a token of the kind `k`. -/
inductive Spelled : Kind → Text → Prop where
  | keyword {s : String} {k : Kind} : (s, k) ∈ keywordKinds → Spelled k s.toList
  | symbol {s : String} {k : Kind} : (s, k) ∈ punctuation → Spelled k s.toList
  | ident {c : Char} {w : Text} : wordStart c = true → (∀ x, x ∈ w → wordChar x = true) →
      (∀ s k, (s, k) ∈ keywordKinds → s.toList ≠ c :: w) → Spelled .IDENT (c :: w)
  | whitespace {w : Text} : w ≠ [] → (∀ c, c ∈ w → Space c) → Spelled .WHITESPACE w
  | comment {body : Text} : '\n' ∉ body → Spelled .COMMENT ('/' :: '/' :: (body ++ ['\n']))
  | lastComment {body : Text} : '\n' ∉ body → Spelled .COMMENT ('/' :: '/' :: body)
  | decimal {ds : Text} {sfx : String} : ds ≠ [] → (∀ c, c ∈ ds → Digit c) → sfx ∈ numberSuffixes →
      Spelled .INTEGER_NUMBER (ds ++ sfx.toList)
  | hex {hs : Text} {sfx : String} : (∀ c, c ∈ hs → HexDigit c) → sfx ∈ numberSuffixes → hs ++ sfx.toList ≠ [] →
      Spelled .INTEGER_NUMBER ('0' :: 'x' :: (hs ++ sfx.toList))
  | bytes {q : Char} {body : Text} : q = 'x' ∨ q = 'b' → Quoted body →
      Spelled .BYTE_STRING (q :: '"' :: (body ++ ['"']))
  /-- A byte string with a character outside ASCII is cut off too early. -/
  | cutBytes {q : Char} {w : Text} : q = 'x' ∨ q = 'b' → (∃ c, c ∈ w ∧ 128 ≤ c.toNat) →
      Spelled .BYTE_STRING (q :: '"' :: w)

end Spec

open Spec

theorem wsRun_eq (t : Text) : wsRun t = byteLen (t.takeWhile isWs) := by
  induction t with
  | nil => rfl
  | cons c cs ih =>
    rw [wsRun, List.takeWhile_cons]
    cases hc : isWs c with
    | false => simp
    | true =>
      simp only [if_true, byteLen_cons]
      rw [ih]
      have : c.utf8Size = 1 := by
        simp only [isWs, Bool.or_eq_true, beq_iff_eq] at hc
        rcases hc with (rfl | rfl) | rfl <;> rfl
      omega

theorem isWs_iff (c : Char) : isWs c = true ↔ Space c := by
  simp only [isWs, Bool.or_eq_true, beq_iff_eq, Space, or_assoc]

/-- Two prefixes of a text of the same byte length are equal. -/
theorem prefix_eq {u v r s : Text} (h : u ++ r = v ++ s) (hl : byteLen u = byteLen v) : u = v := by
  induction u generalizing v with
  | nil =>
    cases v with
    | nil => rfl
    | cons c cs => have := utf8Size_pos c; simp only [byteLen_cons, byteLen_nil] at hl; omega
  | cons c cs ih =>
    cases v with
    | nil => have := utf8Size_pos c; simp only [byteLen_cons, byteLen_nil] at hl; omega
    | cons d ds =>
      simp only [List.cons_append, List.cons.injEq] at h
      obtain ⟨rfl, h⟩ := h
      rw [ih h (by simp only [byteLen_cons] at hl; omega)]

theorem newlinePos_spec (t : Text) : match newlinePos t with
    | some p => ∃ body rest, t = body ++ '\n' :: rest ∧ '\n' ∉ body ∧ byteLen body = p
    | none => '\n' ∉ t := by
  induction t with
  | nil => simp [newlinePos]
  | cons c cs ih =>
    rw [newlinePos]
    by_cases hc : c = '\n'
    · subst hc
      simp only [beq_self_eq_true, if_true]
      exact ⟨[], cs, rfl, by simp, rfl⟩
    · have : (c == '\n') = false := by simp [hc]
      simp only [this, Bool.false_eq_true, if_false]
      cases hn : newlinePos cs with
      | none =>
        rw [hn] at ih
        simp only [Option.map_none]
        intro h
        rcases List.mem_cons.1 h with h | h
        · exact hc h.symm
        · exact ih h
      | some p =>
        rw [hn] at ih
        obtain ⟨body, rest, h1, h2, h3⟩ := ih
        simp only [Option.map_some]
        refine ⟨c :: body, rest, by rw [h1]; rfl, ?_, by rw [byteLen_cons, h3, Nat.add_comm]⟩
        intro h
        rcases List.mem_cons.1 h with h | h
        · exact hc h.symm
        · exact h2 h

theorem isDigit_digit {c : Char} (h : isDigit c = true) : Digit c := by
  rw [isDigit_eq] at h; exact h

theorem isHexDigit_iff (c : Char) : isHexDigit c = true ↔ HexDigit c := by
  simp only [isHexDigit, HexDigit, isDigit_eq, Bool.or_eq_true, Bool.and_eq_true, decide_eq_true_eq]
  constructor
  · rintro ((h | h) | h)
    · exact Or.inr (Or.inl h)
    · exact Or.inr (Or.inr h)
    · exact Or.inl h
  · rintro (h | h | h)
    · exact Or.inr h
    · exact Or.inl (Or.inl h)
    · exact Or.inl (Or.inr h)

theorem suffix_spec {t r : Text} {n : Nat} {k : Kind} {m : Nat} (hs : sliceFrom t n = some r)
    (h : getNumberMaybeWithSuffix t n = some (k, m)) :
    ∃ sfx, sfx ∈ numberSuffixes ∧ sfx.toList <+: r ∧ m = n + byteLen sfx.toList := by
  unfold getNumberMaybeWithSuffix at h
  rw [hs] at h
  simp only at h
  split at h
  · rename_i hp; cases h
    exact ⟨"u8", by decide, List.isPrefixOf_iff_prefix.1 hp, rfl⟩
  · split at h
    · rename_i hp; cases h
      exact ⟨"u64", by decide, List.isPrefixOf_iff_prefix.1 hp, rfl⟩
    · split at h
      · rename_i hp; cases h
        exact ⟨"u128", by decide, List.isPrefixOf_iff_prefix.1 hp, rfl⟩
      · cases h
        exact ⟨"", by decide, List.nil_prefix, rfl⟩

theorem mem_takeWhile {p : Char → Bool} {t : Text} {c : Char} (h : c ∈ t.takeWhile p) : p c = true := by
  induction t with
  | nil => cases h
  | cons d ds ih =>
    rw [List.takeWhile_cons] at h
    split at h
    · rcases List.mem_cons.1 h with rfl | h
      · assumption
      · exact ih h
    · cases h

theorem number_spelled {u r : Text} {c : Char} {cs : Text} {n : Nat} {k : Kind} (he : u ++ r = c :: cs)
    (hc : isDigit c = true) (h : number (c :: cs) = some (k, n)) (hn : n = byteLen u) : Spelled k u := by
  unfold number at h
  split at h
  · rename_i hp
    simp only [Bool.and_eq_true, decide_eq_true_eq] at hp
    obtain ⟨t, ht⟩ := List.isPrefixOf_iff_prefix.1 hp.1
    have hsl : sliceFrom (c :: cs) 2 = some t := by
      rw [← ht]; exact sliceFrom_prefix "0x".toList t
    rw [hsl] at h
    simp only at h
    unfold getHexNumber at h
    rw [findByte_run] at h
    split at h
    · cases h
    · rename_i tok hexLen hh
      obtain ⟨sfx, h1, h2, h3⟩ := suffix_spec (slice_run isHexDigit t) hh
      have hk := (suffix_pos hh).1
      obtain ⟨r2, hr2⟩ := h2
      have ht2 : t = t.takeWhile isHexDigit ++ sfx.toList ++ r2 := by
        conv => lhs; rw [← List.takeWhile_append_dropWhile (p := isHexDigit) (l := t), ← hr2]
        simp
      split at h
      · cases h
        have : u = ['0'] := by
          apply prefix_eq (r := r) (s := 'x' :: t)
          · rw [he, ← ht]; rfl
          · rw [← hn]; rfl
        rw [this]
        exact Spelled.decimal (ds := ['0']) (sfx := "") (by simp) (by simp [Digit]) (by decide)
      · rename_i h0
        cases h
        have : u = '0' :: 'x' :: (t.takeWhile isHexDigit ++ sfx.toList) := by
          apply prefix_eq (r := r) (s := r2)
          · rw [he, ← ht]
            conv => lhs; rw [ht2]
            rfl
          · rw [← hn, h3]
            simp only [byteLen_cons, byteLen_append]
            have e0 : ('0' : Char).utf8Size = 1 := rfl
            have e1 : ('x' : Char).utf8Size = 1 := rfl
            omega
        rw [this, hk]
        refine Spelled.hex (fun c hc => (isHexDigit_iff c).1 (mem_takeWhile hc)) h1 ?_
        intro hnil
        have : byteLen (t.takeWhile isHexDigit ++ sfx.toList) = 0 := by rw [hnil]; rfl
        rw [byteLen_append] at this
        apply h0
        rw [h3]
        simp [this]
  · unfold getDecimalNumber at h
    rw [findIdx_run (fun _ h => isDigit_ascii h)] at h
    obtain ⟨sfx, h1, h2, h3⟩ := suffix_spec (slice_run isDigit (c :: cs)) h
    have hk := (suffix_pos h).1
    obtain ⟨r2, hr2⟩ := h2
    have : u = (c :: cs).takeWhile isDigit ++ sfx.toList := by
      apply prefix_eq (r := r) (s := r2)
      · rw [he, List.append_assoc, hr2, List.takeWhile_append_dropWhile]
      · rw [← hn, h3, byteLen_append]
    rw [this, hk]
    exact Spelled.decimal (by simp [hc]) (fun c hc => isDigit_digit (mem_takeWhile hc)) h1

theorem getStringLen_spec (m : Nat) : ∀ (t : Text) (n : Nat), t.length ≤ m → getStringLen t = some n → '\n' ∉ t →
    ∃ body rest, t = body ++ '"' :: rest ∧ Quoted body ∧ body.length = n := by
  induction m with
  | zero =>
    intro t n hm h
    cases t with
    | nil => simp [getStringLen] at h
    | cons => simp at hm
  | succ m ih =>
    intro t n hm h hnl
    cases t with
    | nil => simp [getStringLen] at h
    | cons c cs =>
      simp only [List.length_cons] at hm
      simp only [List.mem_cons, not_or] at hnl
      unfold getStringLen at h
      by_cases hb : c = '\\'
      · subst hb
        simp only [beq_self_eq_true, if_true] at h
        cases cs with
        | nil => cases h
        | cons d ds =>
          simp only [List.length_cons] at hm
          simp only [List.mem_cons, not_or] at hnl
          simp only [Option.map_eq_some_iff] at h
          obtain ⟨k, hk, rfl⟩ := h
          obtain ⟨body, rest, h1, h2, h3⟩ := ih ds k (by omega) hk hnl.2.2
          exact ⟨'\\' :: d :: body, rest, by rw [h1]; rfl, .escape (fun e => hnl.2.1 e.symm) h2, by simp [h3]⟩
      · have hb' : (c == '\\') = false := by simp [hb]
        simp only [hb', Bool.false_eq_true, if_false] at h
        by_cases hq : c = '"'
        · subst hq
          simp only [beq_self_eq_true, if_true, Option.some.injEq] at h
          exact ⟨[], cs, rfl, .nil, by simp [← h]⟩
        · have hq' : (c == '"') = false := by simp [hq]
          simp only [hq', Bool.false_eq_true, if_false, Option.map_eq_some_iff] at h
          obtain ⟨k, hk, rfl⟩ := h
          obtain ⟨body, rest, h1, h2, h3⟩ := ih cs k (by omega) hk hnl.2
          exact ⟨c :: body, rest, by rw [h1]; rfl, .char hq hb (fun e => hnl.1 e.symm) h2, by simp [h3]⟩

theorem takeWhile_prefix' (p : Char → Bool) (t : Text) : ∃ r, t = t.takeWhile p ++ r :=
  ⟨t.dropWhile p, (List.takeWhile_append_dropWhile).symm⟩

theorem utf8Size_one_of_ascii {c : Char} (h : c.toNat < 128) : c.utf8Size = 1 := by
  unfold Char.utf8Size
  have : c.val ≤ 127 := by
    rw [UInt32.le_iff_toNat_le]
    change c.val.toNat ≤ 127
    have : c.toNat = c.val.toNat := rfl
    omega
  simp [this]

theorem byteString_spelled {u r : Text} {c : Char} {cs : Text} {n : Nat} {k : Kind} (he : u ++ r = c :: cs)
    (hs : (startsWith (c :: cs) "x\"" || startsWith (c :: cs) "b\"") = true)
    (h : nameOrByteString (c :: cs) = some (k, n)) (hn : n = byteLen u) : Spelled k u := by
  unfold nameOrByteString at h
  rw [hs] at h
  simp only [if_true] at h
  split at h
  · rename_i last hl
    cases h
    have hq : ∃ q t, (q = 'x' ∨ q = 'b') ∧ c :: cs = q :: '"' :: t := by
      simp only [Bool.or_eq_true, startsWith] at hs
      rcases hs with hs | hs
      · obtain ⟨t, ht⟩ := List.isPrefixOf_iff_prefix.1 hs
        exact ⟨'x', t, Or.inl rfl, ht.symm⟩
      · obtain ⟨t, ht⟩ := List.isPrefixOf_iff_prefix.1 hs
        exact ⟨'b', t, Or.inr rfl, ht.symm⟩
    obtain ⟨q, t, hq, hqt⟩ := hq
    have hqn : q.utf8Size = 1 ∧ (q != '\n') = true := by rcases hq with rfl | rfl <;> exact ⟨rfl, by decide⟩
    have hline : (firstLine (c :: cs)).drop 2 = t.takeWhile (· != '\n') := by
      rw [hqt]
      unfold firstLine
      have h2 : (('"' : Char) != '\n') = true := by decide
      rw [List.takeWhile_cons, if_pos hqn.2, List.takeWhile_cons, if_pos h2]
      rfl
    rw [hline] at hl
    have hnl : '\n' ∉ t.takeWhile (· != '\n') := by
      intro hm
      have := mem_takeWhile hm
      simp at this
    obtain ⟨body, rest, h1, h2, h3⟩ := getStringLen_spec _ _ _ (Nat.le_refl _) hl hnl
    obtain ⟨r2, hr2⟩ := takeWhile_prefix' (· != '\n') t
    rw [h1] at hr2
    -- the token starts with the letter and the quote
    have hu : ∃ w, u = q :: '"' :: w ∧ byteLen w = last + 1 := by
      rw [hqt] at he
      cases u with
      | nil => simp only [byteLen_nil] at hn; omega
      | cons a u =>
        simp only [List.cons_append, List.cons.injEq] at he
        obtain ⟨rfl, he⟩ := he
        cases u with
        | nil => simp only [byteLen_cons, byteLen_nil] at hn; omega
        | cons b u =>
          simp only [List.cons_append, List.cons.injEq] at he
          obtain ⟨rfl, he⟩ := he
          refine ⟨u, rfl, ?_⟩
          simp only [byteLen_cons] at hn
          have : ('"' : Char).utf8Size = 1 := rfl
          omega
    obtain ⟨w, rfl, hw⟩ := hu
    by_cases hasc : ∃ x, x ∈ w ∧ 128 ≤ x.toNat
    · exact Spelled.cutBytes hq hasc
    · have hlen : w.length = last + 1 := by
        rw [← hw]
        symm
        apply byteLen_eq_length
        intro x hx
        apply utf8Size_one_of_ascii
        apply Classical.byContradiction
        intro hx'
        exact hasc ⟨x, hx, by omega⟩
      have hwt : w ++ r = body ++ ['"'] ++ (rest ++ r2) := by
        rw [hqt] at he
        simp only [List.cons_append, List.cons.injEq, true_and] at he
        rw [he, hr2]
        simp
      have : w = body ++ ['"'] := (List.append_inj hwt (by simp [hlen, h3])).1
      rw [this]
      exact Spelled.bytes hq h2
  · cases h

/-- **C80.**  The token at the start of a text is spelled as its kind says. -/
theorem token_spelled {u r : Text} {k : Kind} (hu : u ≠ []) (h : findToken (u ++ r) = some (k, byteLen u)) :
    Spelled k u := by
  cases hcs : u ++ r with
  | nil => simp at hcs; exact absurd hcs.1 hu
  | cons c cs =>
    rw [hcs] at h
    have hfull := h
    unfold findToken at h
    simp only at h
    split at h
    · rename_i hc
      rw [wsRun_eq] at h
      simp only [Option.some.injEq, Prod.mk.injEq] at h
      obtain ⟨rfl, hl⟩ := h
      have : u = (c :: cs).takeWhile isWs := by
        apply prefix_eq (r := r) (s := (c :: cs).dropWhile isWs)
        · rw [hcs, List.takeWhile_append_dropWhile]
        · exact hl.symm
      rw [this]
      exact .whitespace (by simp [hc]) fun x hx => (isWs_iff x).1 (mem_takeWhile hx)
    · split at h
      · rename_i hc
        simp only [Bool.and_eq_true, beq_iff_eq] at hc
        obtain ⟨t, ht⟩ := List.isPrefixOf_iff_prefix.1 hc.2
        have ht' : c :: cs = '/' :: '/' :: t := ht.symm
        have hp := newlinePos_spec (c :: cs)
        split at h
        · rename_i pos hpos
          rw [hpos] at hp
          obtain ⟨body, rest, h1, h2, h3⟩ := hp
          simp only [Option.some.injEq, Prod.mk.injEq] at h
          obtain ⟨rfl, hl⟩ := h
          have hub : u = body ++ ['\n'] := by
            apply prefix_eq (r := r) (s := rest)
            · rw [hcs, h1]; simp
            · rw [← hl, ← h3, byteLen_append]; rfl
          have hb : ∃ b, body = '/' :: '/' :: b := by
            rw [h1] at ht'
            cases body with
            | nil => simp at ht'
            | cons a body =>
              cases body with
              | nil => simp at ht'
              | cons b body =>
                simp only [List.cons_append, List.cons.injEq] at ht'
                exact ⟨body, by rw [ht'.1, ht'.2.1]⟩
          obtain ⟨b, rfl⟩ := hb
          rw [hub]
          exact .comment (by simp at h2; exact h2)
        · rename_i hpos
          rw [hpos] at hp
          simp only [Option.some.injEq, Prod.mk.injEq] at h
          obtain ⟨rfl, hl⟩ := h
          have : u = c :: cs := by
            apply prefix_eq (r := r) (s := [])
            · rw [hcs]; simp
            · exact hl.symm
          rw [this, ht']
          rw [ht'] at hp
          exact .lastComment (by simp at hp; exact hp)
      · split at h
        · rename_i hd
          exact number_spelled hcs hd h rfl
        · split at h
          · rename_i hname
            cases hs : (startsWith (c :: cs) "x\"" || startsWith (c :: cs) "b\"") with
            | true => exact byteString_spelled hcs hs h rfl
            | false =>
              rw [name_spec hs] at h
              simp only [Option.some.injEq, Prod.mk.injEq] at h
              obtain ⟨hk, hl⟩ := h
              have hut : u = (c :: cs).takeWhile isNameChar := by
                apply prefix_eq (r := r) (s := (c :: cs).dropWhile isNameChar)
                · rw [hcs, List.takeWhile_append_dropWhile]
                · exact hl.symm
              rw [← hut] at hk
              cases hkw : Kind.fromKeyword u with
              | some k' =>
                rw [hkw] at hk
                simp only [Option.getD_some] at hk
                obtain ⟨s, hm, rfl⟩ := (keyword_table u k').1 hkw
                rw [← hk]
                exact .keyword hm
              | none =>
                rw [hkw] at hk
                simp only [Option.getD_none] at hk
                subst hk
                have hchars : ∀ x, x ∈ u → wordChar x = true := by
                  intro x hx
                  rw [hut] at hx
                  rw [← isNameChar_eq]
                  exact mem_takeWhile hx
                cases u with
                | nil => exact absurd rfl hu
                | cons a w =>
                  have ha : a = c := by simp only [List.cons_append, List.cons.injEq] at hcs; exact hcs.1
                  refine .ident ?_ (fun x hx => hchars x (by simp [hx])) ?_
                  · rw [ha, ← isNameStart_eq]; exact hname
                  · intro s k' hm he
                    have := (keyword_table (a :: w) k').2 ⟨s, hm, he⟩
                    rw [hkw] at this
                    cases this
          · obtain ⟨lit, hm, hs⟩ := punct_mem h
            have htab : ∀ e ∈ punctTable, (e.1, e.2.1) ∈ punctuation ∧ e.2.2 = byteLen e.1.toList := by
              decide +kernel
            obtain ⟨t, ht⟩ := List.isPrefixOf_iff_prefix.1 hs
            have : u = lit.toList := by
              apply prefix_eq (r := r) (s := t)
              · rw [hcs]; exact ht.symm
              · exact (htab _ hm).2
            rw [this]
            exact .symbol (htab _ hm).1

theorem lexes_spelled {t rest : Text} {ts : List (Kind × Text)} (h : Steps t ts rest) :
    ∀ x, x ∈ ts → Spelled x.1 x.2 := by
  induction h with
  | nil => intro x hx; cases hx
  | @cons u r k ts r' hu hf _ ih =>
    intro x hx
    rcases List.mem_cons.1 hx with rfl | hx
    · exact token_spelled hu hf
    · exact ih x hx

/-! ### The spelling determines the kind -/

/-- The kind of a spelling by its first characters. -/
def classify : Text → Kind
  | [] => .EOF
  | c :: w =>
    if isWs c then .WHITESPACE
    else if c.isDigit then .INTEGER_NUMBER
    else if wordStart c then
      if w.head? = some '"' then .BYTE_STRING else (Kind.fromKeyword (c :: w)).getD .IDENT
    else if c = '/' ∧ w.head? = some '/' then .COMMENT
    else ((punctuation.find? fun e => e.1.toList == c :: w).map Prod.snd).getD .EOF

theorem classify_spelled {k : Kind} {u : Text} (h : Spelled k u) : classify u = k := by
  cases h with
  | @keyword s _ hm =>
    have : ∀ e ∈ keywordKinds, classify e.1.toList = e.2 := by decide +kernel
    exact this _ hm
  | @symbol s _ hm =>
    have : ∀ e ∈ punctuation, classify e.1.toList = e.2 := by decide +kernel
    exact this _ hm
  | @ident c w hc hw hk =>
    have h1 : isWs c = false := by
      cases hx : isWs c with
      | false => rfl
      | true =>
        rcases (isWs_iff c).1 hx with rfl | rfl | rfl <;> exact absurd hc (by decide)
    have h2 : c.isDigit = false := by
      rw [← isNameStart_eq] at hc
      have := (nameStart_not_ws hc).2.2
      rwa [isDigit_eq] at this
    have h3 : w.head? ≠ some '"' := by
      cases w with
      | nil => simp
      | cons x xs =>
        simp only [List.head?_cons, ne_eq, Option.some.injEq]
        rintro rfl
        exact absurd (hw '"' (by simp)) (by decide)
    have h4 : Kind.fromKeyword (c :: w) = none := by
      cases hx : Kind.fromKeyword (c :: w) with
      | none => rfl
      | some k =>
        obtain ⟨s, hm, he⟩ := (keyword_table _ _).1 hx
        exact absurd he (hk s k hm)
    simp [classify, h1, h2, hc, h3, h4]
  | @whitespace w hne hw =>
    cases u with
    | nil => exact absurd rfl hne
    | cons c w => simp [classify, (isWs_iff c).2 (hw c (by simp))]
  | comment => rfl
  | lastComment => rfl
  | @decimal ds sfx hne hd hs =>
    cases ds with
    | nil => exact absurd rfl hne
    | cons c ds =>
      have hc : c.isDigit = true := hd c (by simp)
      have h1 : isWs c = false := by
        cases hx : isWs c with
        | false => rfl
        | true => rcases (isWs_iff c).1 hx with rfl | rfl | rfl <;> exact absurd hc (by decide)
      simp [classify, h1, hc]
  | hex => simp [classify]; decide
  | bytes hq =>
    rcases hq with rfl | rfl <;> rfl
  | cutBytes hq =>
    rcases hq with rfl | rfl <;> rfl

/-- **C80.**  No text is a token of two kinds. -/
theorem spelled_unique {k k' : Kind} {u : Text} (h : Spelled k u) (h' : Spelled k' u) : k = k' := by
  rw [← classify_spelled h, ← classify_spelled h']

/-! ### Every spelling is a token -/

theorem takeWhile_all {p : Char → Bool} {w : Text} (h : ∀ c, c ∈ w → p c = true) : w.takeWhile p = w := by
  have := takeWhile_run (p := p) (w := w) (rest := []) h (by simp)
  simpa using this

theorem newlinePos_body {body rest : Text} (h : '\n' ∉ body) :
    newlinePos (body ++ '\n' :: rest) = some (byteLen body) := by
  induction body with
  | nil => rfl
  | cons c cs ih =>
    simp only [List.mem_cons, not_or] at h
    have hc : (c == '\n') = false := by
      rw [beq_eq_false_iff_ne]; exact fun e => h.1 e.symm
    rw [List.cons_append, newlinePos, hc]
    simp only [Bool.false_eq_true, if_false]
    rw [ih h.2]
    simp [Nat.add_comm]

theorem newlinePos_none {t : Text} (h : '\n' ∉ t) : newlinePos t = none := by
  induction t with
  | nil => rfl
  | cons c cs ih =>
    simp only [List.mem_cons, not_or] at h
    have hc : (c == '\n') = false := by
      rw [beq_eq_false_iff_ne]; exact fun e => h.1 e.symm
    rw [newlinePos, hc]
    simp only [Bool.false_eq_true, if_false]
    rw [ih h.2]
    rfl

theorem suffix_read {t : Text} {n : Nat} {sfx : String} (hs : sliceFrom t n = some sfx.toList)
    (hm : sfx ∈ numberSuffixes) :
    getNumberMaybeWithSuffix t n = some (.INTEGER_NUMBER, n + byteLen sfx.toList) := by
  unfold getNumberMaybeWithSuffix
  rw [hs]
  simp only [numberSuffixes, List.mem_cons, List.not_mem_nil, or_false] at hm
  rcases hm with rfl | rfl | rfl | rfl <;> rfl

theorem number_suffix_head {sfx : String} (hm : sfx ∈ numberSuffixes) (x : Char) (h : sfx.toList.head? = some x) :
    x = 'u' := by
  have : ∀ s ∈ numberSuffixes, s.toList.head? = none ∨ s.toList.head? = some 'u' := by decide +kernel
  rcases this _ hm with h' | h' <;> rw [h'] at h <;> cases h
  rfl

theorem slice_all (p : Char → Bool) {w rest : Text} (hw : ∀ c, c ∈ w → p c = true)
    (hr : ∀ x, rest.head? = some x → p x = false) :
    byteLen ((w ++ rest).takeWhile p) = byteLen w ∧ sliceFrom (w ++ rest) (byteLen w) = some rest := by
  rw [takeWhile_run hw hr]
  exact ⟨rfl, sliceFrom_prefix w rest⟩

theorem getStringLen_read {body rest : Text} (h : Quoted body) : getStringLen (body ++ '"' :: rest) = some body.length := by
  induction h with
  | nil => unfold getStringLen; rfl
  | @char c w h1 h2 h3 _ ih =>
    have e1 : (c == '\\') = false := by simp [h2]
    have e2 : (c == '"') = false := by simp [h1]
    rw [List.cons_append]
    unfold getStringLen
    simp [e1, e2, ih]
  | @escape c w h1 _ ih =>
    rw [List.cons_append, List.cons_append]
    unfold getStringLen
    simp [ih]

theorem quoted_no_newline {body : Text} (h : Quoted body) : '\n' ∉ body := by
  induction h with
  | nil => simp
  | char _ _ h3 _ ih => simp only [List.mem_cons, not_or]; exact ⟨fun e => h3 e.symm, ih⟩
  | escape h1 _ ih =>
    simp only [List.mem_cons, not_or]
    exact ⟨by decide, fun e => h1 e.symm, ih⟩

/-- **C80.**  A spelling that stands alone is read as one token of its kind, unless it has characters outside
ASCII in a byte string. -/
theorem spelled_token {k : Kind} {u : Text} (h : Spelled k u)
    (hasc : k = .BYTE_STRING → ∀ c, c ∈ u → c.toNat < 128) : findToken u = some (k, byteLen u) := by
  cases h with
  | @keyword s _ hm =>
    have : ∀ e ∈ keywordKinds, findToken e.1.toList = some (e.2, byteLen e.1.toList) := by decide +kernel
    exact this _ hm
  | @symbol s _ hm =>
    have : ∀ e ∈ punctuation, findToken e.1.toList = some (e.2, byteLen e.1.toList) := by decide +kernel
    exact this _ hm
  | @ident c w hc hw hk =>
    have := (word_is_keyword_or_identifier (rest := []) hc hw (by simp) (by simp)).2 hk
    simpa using this
  | @whitespace w hne hw =>
    cases u with
    | nil => exact absurd rfl hne
    | cons c w =>
      have hc : isWs c = true := (isWs_iff c).2 (hw c (by simp))
      unfold findToken
      simp only [hc, if_true]
      rw [wsRun_eq, takeWhile_all fun x hx => (isWs_iff x).2 (hw x hx)]
  | @comment body hb =>
    have : newlinePos ('/' :: '/' :: (body ++ ['\n'])) = some (byteLen ('/' :: '/' :: body)) :=
      newlinePos_body (body := '/' :: '/' :: body) (rest := []) (by
        simp only [List.mem_cons, not_or]; exact ⟨by decide, by decide, hb⟩)
    unfold findToken
    have h1 : isWs '/' = false := rfl
    have h2 : startsWith ('/' :: '/' :: (body ++ ['\n'])) "//" = true := rfl
    simp only [h1, h2, this, Bool.false_eq_true, if_false, beq_self_eq_true, Bool.and_self, if_true]
    have e : ('\n' : Char).utf8Size = 1 := rfl
    simp only [byteLen_cons, byteLen_append, byteLen_nil, e]
    congr 2
  | @lastComment body hb =>
    have : newlinePos ('/' :: '/' :: body) = none := newlinePos_none (by
        simp only [List.mem_cons, not_or]; exact ⟨by decide, by decide, hb⟩)
    unfold findToken
    have h1 : isWs '/' = false := rfl
    have h2 : startsWith ('/' :: '/' :: body) "//" = true := rfl
    simp only [h1, h2, this, Bool.false_eq_true, if_false, beq_self_eq_true, Bool.and_self, if_true]
  | @decimal ds sfx hne hd hs =>
    cases ds with
    | nil => exact absurd rfl hne
    | cons c ds =>
      have hc : isDigit c = true := by rw [isDigit_eq]; exact hd c (by simp)
      have h1 : isWs c = false := by
        cases hx : isWs c with
        | false => rfl
        | true => rcases (isWs_iff c).1 hx with rfl | rfl | rfl <;> exact absurd hc (by decide)
      have h2 : (c == '/') = false := by
        rw [beq_eq_false_iff_ne]; rintro rfl; exact absurd hc (by decide)
      have hx : startsWith (c :: (ds ++ sfx.toList)) "0x" = false := by
        cases hx : startsWith (c :: (ds ++ sfx.toList)) "0x" with
        | false => rfl
        | true =>
          obtain ⟨t, ht⟩ := List.isPrefixOf_iff_prefix.1 hx
          have ht' : '0' :: 'x' :: t = c :: (ds ++ sfx.toList) := ht
          simp only [List.cons.injEq] at ht'
          cases ds with
          | nil =>
            have := number_suffix_head hs 'x' (by rw [List.nil_append] at ht'; rw [← ht'.2]; rfl)
            exact absurd this (by decide)
          | cons d ds =>
            have hdx : d = 'x' := by
              have := ht'.2; simp only [List.cons_append, List.cons.injEq] at this; exact this.1.symm
            have : Digit d := hd d (by simp)
            rw [hdx] at this
            exact absurd (show ('x' : Char).isDigit = true from this) (by decide)
      obtain ⟨e1, e2⟩ := slice_all isDigit (w := c :: ds) (rest := sfx.toList)
        (fun x hx => by rw [isDigit_eq]; exact hd x hx) (fun x hx => by rw [number_suffix_head hs x hx]; rfl)
      have hread := suffix_read e2 hs
      show findToken (c :: (ds ++ sfx.toList)) = _
      unfold findToken
      simp only [h1, h2, hc, Bool.false_eq_true, if_false, Bool.false_and, if_true]
      unfold number
      simp only [hx, Bool.false_and, Bool.false_eq_true, if_false]
      unfold getDecimalNumber
      rw [findIdx_run (fun _ h => isDigit_ascii h)]
      show getNumberMaybeWithSuffix (c :: ds ++ sfx.toList) (byteLen ((c :: ds ++ sfx.toList).takeWhile isDigit)) = _
      rw [e1, hread, byteLen_append]
  | @hex hs sfx hh hsx hne =>
    obtain ⟨e1, e2⟩ := slice_all isHexDigit (w := hs) (rest := sfx.toList)
      (fun x hx => (isHexDigit_iff x).2 (hh x hx)) (fun x hx => by rw [number_suffix_head hsx x hx]; rfl)
    have hread := suffix_read e2 hsx
    have hpos : 0 < byteLen (hs ++ sfx.toList) := by
      cases hw : hs ++ sfx.toList with
      | nil => exact absurd hw hne
      | cons a b => have := utf8Size_pos a; simp only [byteLen_cons]; omega
    have h1 : isWs '0' = false := rfl
    have h2 : (('0' : Char) == '/') = false := rfl
    have h3 : isDigit '0' = true := rfl
    have h4 : startsWith ('0' :: 'x' :: (hs ++ sfx.toList)) "0x" = true := rfl
    have e0 : ('0' : Char).utf8Size = 1 := rfl
    have ex : ('x' : Char).utf8Size = 1 := rfl
    unfold findToken
    simp only [h1, h2, h3, Bool.false_eq_true, if_false, Bool.false_and, if_true]
    unfold number
    have h5 : decide (byteLen ('0' :: 'x' :: (hs ++ sfx.toList)) > 2) = true := by
      rw [decide_eq_true_eq]; simp only [byteLen_cons]; omega
    have h6 : sliceFrom ('0' :: 'x' :: (hs ++ sfx.toList)) 2 = some (hs ++ sfx.toList) :=
      sliceFrom_prefix "0x".toList (hs ++ sfx.toList)
    simp only [h4, h5, Bool.and_self, if_true, h6]
    unfold getHexNumber
    rw [findByte_run, e1, hread]
    rw [byteLen_append] at hpos
    have h7 : (byteLen hs + byteLen sfx.toList == 0) = false := by rw [beq_eq_false_iff_ne]; omega
    simp only [h7, Bool.false_eq_true, if_false, byteLen_cons, byteLen_append, e0, ex]
    congr 2
    omega
  | @bytes q body hq hb =>
    have hlen : byteLen body = body.length := byteLen_eq_length fun x hx =>
      utf8Size_one_of_ascii (hasc rfl x (by simp [hx]))
    have hs : (startsWith (q :: '"' :: (body ++ ['"'])) "x\"" || startsWith (q :: '"' :: (body ++ ['"'])) "b\"") = true := by
      rcases hq with rfl | rfl <;> rfl
    have hline : (firstLine (q :: '"' :: (body ++ ['"']))).drop 2 = body ++ ['"'] := by
      unfold firstLine
      rw [takeWhile_all]
      · rfl
      · intro x hx
        simp only [List.mem_cons, List.mem_append, List.not_mem_nil, or_false] at hx
        have : x ≠ '\n' := by
          rcases hx with rfl | rfl | hx | rfl
          · rcases hq with rfl | rfl <;> decide
          · decide
          · rintro rfl; exact quoted_no_newline hb hx
          · decide
        simp [this]
    have hread : nameOrByteString (q :: '"' :: (body ++ ['"'])) = some (.BYTE_STRING, 2 + body.length + 1) := by
      unfold nameOrByteString
      rw [hs, hline, getStringLen_read hb]
      rfl
    have : findToken (q :: '"' :: (body ++ ['"'])) = nameOrByteString (q :: '"' :: (body ++ ['"'])) := by
      rcases hq with rfl | rfl <;> rfl
    rw [this, hread]
    simp only [byteLen_cons, byteLen_append, byteLen_nil, hlen]
    have e1 : ('"' : Char).utf8Size = 1 := rfl
    have e2 : q.utf8Size = 1 := by rcases hq with rfl | rfl <;> rfl
    rw [e1, e2]
    congr 2
    omega
  | @cutBytes q w hq hw =>
    obtain ⟨c, hc, hc'⟩ := hw
    have := hasc rfl c (by simp [hc])
    omega

/-! ### Where the lexer disagrees with the language, and witnesses -/

/-- A byte string with a character outside ASCII ends before its closing quote. -/
theorem byte_string_cut : findToken "b\"é\"".toList = some (.BYTE_STRING, byteLen "b\"é".toList) := by decide +kernel

/-- `0xu8`, a number without digits, is a number. -/
theorem number_without_digits : findToken "0xu8".toList = some (.INTEGER_NUMBER, byteLen "0xu8".toList) := by
  decide +kernel

example : findToken ("0x1Fu64".toList ++ ";".toList) = some (.INTEGER_NUMBER, byteLen "0x1Fu64".toList) := by
  decide +kernel

example : ¬ Spelled .IDENT "fun".toList := fun h => by
  have := classify_spelled h
  exact absurd this (by decide +kernel)

end Verif.Lexer
