import Verif.Text.Lemmas
import Verif.Edits.Lemmas
import Verif.Kinds.Props
import Verif.Lexer.Spec

set_option autoImplicit false

namespace Verif.Lexer

open Edits (splitAtByte splitAtByte_prefix splitAtByte_some)

theorem sliceFrom_prefix (p q : Text) : sliceFrom (p ++ q) (byteLen p) = some q := by
  unfold sliceFrom; rw [splitAtByte_prefix]; rfl

theorem sliceFrom_some {t r : Text} {n : Nat} (h : sliceFrom t n = some r) :
    ∃ p, t = p ++ r ∧ n = byteLen p := by
  unfold sliceFrom at h
  cases hs : splitAtByte n t with
  | none => rw [hs] at h; cases h
  | some pq =>
    obtain ⟨p, q⟩ := pq
    rw [hs] at h
    cases h
    exact ⟨p, splitAtByte_some hs⟩

theorem sliceRange_zero_prefix (p q : Text) : sliceRange (p ++ q) 0 (byteLen p) = some p := by
  unfold sliceRange
  rw [if_pos (Nat.zero_le _)]
  have : sliceFrom (p ++ q) 0 = some (p ++ q) := by simpa using sliceFrom_prefix [] (p ++ q)
  rw [this]
  simp only [Nat.sub_zero, splitAtByte_prefix]
  rfl

theorem sliceRange_mid (p u q : Text) :
    sliceRange (p ++ (u ++ q)) (byteLen p) (byteLen p + byteLen u) = some u := by
  unfold sliceRange
  rw [if_pos (by omega), sliceFrom_prefix]
  simp only [Nat.add_sub_cancel_left, splitAtByte_prefix]
  rfl

/-! Character classes are ASCII. -/

theorem utf8Size_of_le_z (c : Char) (h : c.val.toNat < 128) : c.utf8Size = 1 :=
  (utf8Size_eq_one_iff c).2 h

theorem le_toNat {a c : Char} (h : a ≤ c) : a.val.toNat ≤ c.val.toNat := h

theorem isDigit_ascii {c : Char} (h : isDigit c = true) : c.utf8Size = 1 := by
  unfold isDigit at h
  simp only [Bool.and_eq_true, decide_eq_true_eq] at h
  have := le_toNat h.2
  have : ('9' : Char).val.toNat = 57 := rfl
  exact utf8Size_of_le_z c (by omega)

theorem isNameStart_ascii {c : Char} (h : isNameStart c = true) : c.utf8Size = 1 := by
  unfold isNameStart at h
  simp only [Bool.or_eq_true, Bool.and_eq_true, decide_eq_true_eq, beq_iff_eq] at h
  have hz : ('z' : Char).val.toNat = 122 := rfl
  have hZ : ('Z' : Char).val.toNat = 90 := rfl
  rcases h with (⟨_, h⟩ | ⟨_, h⟩) | h
  · have := le_toNat h; exact utf8Size_of_le_z c (by omega)
  · have := le_toNat h; exact utf8Size_of_le_z c (by omega)
  · subst h; rfl

theorem isNameChar_ascii {c : Char} (h : isNameChar c = true) : c.utf8Size = 1 := by
  unfold isNameChar at h
  simp only [Bool.or_eq_true] at h
  exact h.elim isNameStart_ascii isDigit_ascii

theorem isHexDigit_ascii {c : Char} (h : isHexDigit c = true) : c.utf8Size = 1 := by
  unfold isHexDigit at h
  simp only [Bool.or_eq_true, Bool.and_eq_true, decide_eq_true_eq] at h
  have hf : ('f' : Char).val.toNat = 102 := rfl
  have hF : ('F' : Char).val.toNat = 70 := rfl
  rcases h with (⟨_, h⟩ | ⟨_, h⟩) | h
  · have := le_toNat h; exact utf8Size_of_le_z c (by omega)
  · have := le_toNat h; exact utf8Size_of_le_z c (by omega)
  · exact isDigit_ascii h

theorem isWs_ascii {c : Char} (h : isWs c = true) : c.utf8Size = 1 := by
  unfold isWs at h
  simp only [Bool.or_eq_true, beq_iff_eq] at h
  rcases h with (rfl | rfl) | rfl <;> rfl

theorem byteLen_eq_length {p : Text} (h : ∀ c ∈ p, c.utf8Size = 1) : byteLen p = p.length := by
  induction p with
  | nil => rfl
  | cons c cs ih =>
    rw [byteLen_cons, h c (List.mem_cons_self ..), ih (fun x hx => h x (List.mem_cons_of_mem _ hx)),
      List.length_cons]
    omega

/-- `position(!p).unwrap_or(len)` on a class of one-byte characters is the length of the run. -/
theorem findIdx_run {p : Char → Bool} (hp : ∀ c, p c = true → c.utf8Size = 1) (t : Text) :
    (t.findIdx? (fun c => !p c)).getD (byteLen t) = byteLen (t.takeWhile p) := by
  induction t with
  | nil => rfl
  | cons c cs ih =>
    rw [List.findIdx?_cons, List.takeWhile_cons]
    cases hc : p c with
    | false => simp
    | true =>
      simp only [Bool.not_true, Bool.false_eq_true, if_false, byteLen_cons, if_true]
      rw [hp c hc, ← ih]
      cases cs.findIdx? (fun c => !p c) <;> simp <;> omega

theorem findByte_run {p : Char → Bool} (t : Text) :
    (findByte (fun c => !p c) t).getD (byteLen t) = byteLen (t.takeWhile p) := by
  induction t with
  | nil => rfl
  | cons c cs ih =>
    rw [findByte, List.takeWhile_cons]
    cases hc : p c with
    | false => simp
    | true =>
      simp only [Bool.not_true, Bool.false_eq_true, if_false, byteLen_cons, if_true]
      rw [← ih]
      cases findByte (fun c => !p c) cs <;> simp <;> omega

theorem getNameLen_run (t : Text) : getNameLen t = byteLen (t.takeWhile isNameChar) :=
  findIdx_run (fun _ h => isNameChar_ascii h) t

theorem slice_run (p : Char → Bool) (t : Text) :
    sliceFrom t (byteLen (t.takeWhile p)) = some (t.dropWhile p) := by
  conv => lhs; arg 1; rw [← List.takeWhile_append_dropWhile (p := p) (l := t)]
  exact sliceFrom_prefix _ _

theorem suffix_pos {t : Text} {n : Nat} {k : Kind} {m : Nat}
    (h : getNumberMaybeWithSuffix t n = some (k, m)) : k = .INTEGER_NUMBER ∧ n ≤ m := by
  unfold getNumberMaybeWithSuffix at h
  split at h
  · cases h
  · repeat' split at h
    all_goals cases h; exact ⟨rfl, by omega⟩

theorem suffix_total {t r : Text} {n : Nat} (h : sliceFrom t n = some r) :
    ∃ m, getNumberMaybeWithSuffix t n = some (.INTEGER_NUMBER, m) := by
  unfold getNumberMaybeWithSuffix
  rw [h]
  simp only
  repeat' split
  all_goals exact ⟨_, rfl⟩

theorem number_spec {c : Char} {cs : Text} (hc : isDigit c = true) :
    ∃ n, number (c :: cs) = some (.INTEGER_NUMBER, n) ∧ 0 < n := by
  unfold number
  split
  · rename_i h
    simp only [Bool.and_eq_true, decide_eq_true_eq] at h
    have hs : ∃ r, c :: cs = "0x".toList ++ r := by
      have := h.1
      unfold startsWith at this
      rw [List.isPrefixOf_iff_prefix] at this
      obtain ⟨r, hr⟩ := this
      exact ⟨r, hr.symm⟩
    obtain ⟨r, hr⟩ := hs
    have : sliceFrom (c :: cs) 2 = some r := by
      rw [hr]; exact sliceFrom_prefix "0x".toList r
    rw [this]
    simp only
    unfold getHexNumber
    rw [findByte_run]
    obtain ⟨m, hm⟩ := suffix_total (slice_run isHexDigit r)
    rw [hm]
    simp only
    split
    · exact ⟨1, rfl, by omega⟩
    · exact ⟨2 + m, rfl, by omega⟩
  · unfold getDecimalNumber
    rw [findIdx_run (fun _ h => isDigit_ascii h)]
    obtain ⟨m, hm⟩ := suffix_total (slice_run isDigit (c :: cs))
    refine ⟨m, hm, ?_⟩
    have h1 := (suffix_pos hm).2
    have h2 : (c :: cs).takeWhile isDigit = c :: cs.takeWhile isDigit := by
      simp [hc]
    rw [h2, byteLen_cons, isDigit_ascii hc] at h1
    omega

/-- The kinds of tokens found in a non-empty text. -/
def isTokenKind (k : Kind) : Bool :=
  decide (2 ≤ k.toNat) && decide (k.toNat ≤ 65) && k != .ERROR && k != .WILDCARD

theorem fromKeyword_tokenKind {w : Text} {k : Kind} (h : Kind.fromKeyword w = some k) :
    isTokenKind k = true ∧ k.isTrivia = false ∧ (w, k) ∈ Kind.keywords := by
  unfold Kind.fromKeyword at h
  rw [Option.map_eq_some_iff] at h
  obtain ⟨e, he, rfl⟩ := h
  have hm := List.mem_of_find?_eq_some he
  have hp := List.find?_some he
  simp only [beq_iff_eq] at hp
  have htab : ∀ x ∈ Kind.keywords, isTokenKind x.2 = true ∧ x.2.isTrivia = false := by
    decide +kernel
  refine ⟨(htab e hm).1, (htab e hm).2, ?_⟩
  rw [← hp]
  exact hm

theorem name_spec {c : Char} {cs : Text}
    (hs : (startsWith (c :: cs) "x\"" || startsWith (c :: cs) "b\"") = false) :
    nameOrByteString (c :: cs)
      = some ((Kind.fromKeyword ((c :: cs).takeWhile isNameChar)).getD .IDENT,
              byteLen ((c :: cs).takeWhile isNameChar)) := by
  unfold nameOrByteString
  rw [hs]
  simp only [Bool.false_eq_true, if_false]
  rw [getNameLen_run]
  have : sliceRange (c :: cs) 0 (byteLen ((c :: cs).takeWhile isNameChar))
      = some ((c :: cs).takeWhile isNameChar) := by
    have := sliceRange_zero_prefix ((c :: cs).takeWhile isNameChar) ((c :: cs).dropWhile isNameChar)
    rwa [List.takeWhile_append_dropWhile] at this
  rw [this]

theorem name_pos {c : Char} {cs : Text} (hc : isNameStart c = true) :
    0 < byteLen ((c :: cs).takeWhile isNameChar) := by
  have : isNameChar c = true := by unfold isNameChar; rw [hc]; rfl
  simp only [List.takeWhile_cons, this, if_true, byteLen_cons]
  have := utf8Size_pos c
  omega

theorem punct_mem {t : Text} {k : Kind} {n : Nat} (h : punct t = some (k, n)) :
    ∃ lit, (lit, k, n) ∈ punctTable ∧ startsWith t lit = true := by
  unfold punct at h
  rw [Option.map_eq_some_iff] at h
  obtain ⟨⟨lit, e⟩, he, h⟩ := h
  simp only at h
  subst h
  exact ⟨lit, List.mem_of_find?_eq_some he, by simpa using List.find?_some he⟩

theorem punct_spec {t : Text} {k : Kind} {n : Nat} (h : punct t = some (k, n)) :
    isTokenKind k = true ∧ k.isTrivia = false ∧ 0 < n ∧ k ≠ .IDENT ∧ k.toNat ≤ 38 := by
  obtain ⟨lit, hm, _⟩ := punct_mem h
  have htab : ∀ e ∈ punctTable, isTokenKind e.2.1 = true ∧ e.2.1.isTrivia = false ∧ 0 < e.2.2 ∧
      e.2.1 ≠ .IDENT ∧ e.2.1.toNat ≤ 38 := by decide +kernel
  exact htab _ hm

/-- A token of a non-empty text is never empty and never the end-of-input token. -/
theorem findToken_cons {c : Char} {cs : Text} {k : Kind} {n : Nat}
    (h : findToken (c :: cs) = some (k, n)) : isTokenKind k = true ∧ 0 < n := by
  unfold findToken at h
  simp only at h
  split at h
  · rename_i hc
    cases h
    exact ⟨rfl, by simp [wsRun, hc]⟩
  · split at h
    · split at h
      · cases h; exact ⟨rfl, by omega⟩
      · cases h
        have := utf8Size_pos c
        exact ⟨rfl, by rw [byteLen_cons]; omega⟩
    · split at h
      · rename_i hc
        obtain ⟨m, hm, hp⟩ := number_spec (cs := cs) hc
        rw [hm] at h
        cases h
        exact ⟨rfl, hp⟩
      · split at h
        · rename_i hc
          cases hs : (startsWith (c :: cs) "x\"" || startsWith (c :: cs) "b\"") with
          | true =>
            unfold nameOrByteString at h
            rw [hs] at h
            simp only [if_true] at h
            split at h
            · cases h; exact ⟨rfl, by omega⟩
            · cases h
          | false =>
            rw [name_spec hs] at h
            cases h
            refine ⟨?_, name_pos hc⟩
            cases hk : Kind.fromKeyword ((c :: cs).takeWhile isNameChar) with
            | none => rfl
            | some k => exact (fromKeyword_tokenKind hk).1
        · have := punct_spec h
          exact ⟨this.1, this.2.2.1⟩

theorem isTokenKind_ne_eof {k : Kind} (h : isTokenKind k = true) : k ≠ .EOF := by
  rintro rfl; cases h

theorem isTokenKind_ne_tombstone {k : Kind} (h : isTokenKind k = true) : k ≠ .TOMBSTONE := by
  rintro rfl; cases h

theorem findToken_eof_iff {t : Text} {k : Kind} {n : Nat} (h : findToken t = some (k, n)) :
    k = .EOF ↔ t = [] := by
  constructor
  · rintro rfl
    cases t with
    | nil => rfl
    | cons c cs => exact absurd rfl (isTokenKind_ne_eof (findToken_cons h).1)
  · rintro rfl
    cases h; rfl

theorem findToken_nil {k : Kind} {n : Nat} (h : findToken [] = some (k, n)) : k = .EOF ∧ n = 0 := by
  cases h; exact ⟨rfl, rfl⟩

/-! Reading tokens one after the other. -/

theorem Steps.append {a b c : Text} {xs ys : List (Kind × Text)} (h1 : Steps a xs b)
    (h2 : Steps b ys c) : Steps a (xs ++ ys) c := by
  induction h1 with
  | nil t => exact h2
  | cons hu hf _ ih => exact .cons hu hf (ih h2)

theorem Steps.text {a b : Text} {xs : List (Kind × Text)} (h : Steps a xs b) :
    a = (xs.map Prod.snd).flatten ++ b := by
  induction h with
  | nil t => rfl
  | cons hu hf _ ih => rw [ih]; simp

theorem Steps.kinds {a b : Text} {xs : List (Kind × Text)} (h : Steps a xs b) :
    ∀ x ∈ xs, isTokenKind x.1 = true ∧ x.2 ≠ [] := by
  induction h with
  | nil t => intro x hx; cases hx
  | @cons u r k ts r' hu hf _ ih =>
    intro x hx
    rw [List.mem_cons] at hx
    rcases hx with rfl | hx
    · refine ⟨?_, hu⟩
      cases u with
      | nil => exact absurd rfl hu
      | cons c cs => exact (findToken_cons hf).1
    · exact ih x hx

theorem Steps.deterministic {a b b' : Text} {xs ys : List (Kind × Text)} (h1 : Steps a xs b)
    (h2 : Steps a ys b') (hl : xs.length = ys.length) : xs = ys ∧ b = b' := by
  induction h1 generalizing ys b' with
  | nil t =>
    cases h2 with
    | nil => exact ⟨rfl, rfl⟩
    | cons => cases hl
  | @cons u r k ts r' hu hf hrest ih =>
    generalize ha : u ++ r = a at h2
    cases h2 with
    | nil => cases hl
    | @cons u' r2 k' ts' _ hu' hf' hrest' =>
      rw [← ha, hf] at hf'
      injection hf' with hf'
      injection hf' with h1 h2
      obtain ⟨rfl, rfl⟩ := prefix_unique ha h2
      obtain ⟨rfl, rfl⟩ := ih hrest' (by simpa using hl)
      subst h1
      exact ⟨rfl, rfl⟩

/-- The tokens of a text are determined by the text. -/
theorem Lexes.unique {a : Text} {xs ys : List (Kind × Text)} (h1 : Lexes a xs) (h2 : Lexes a ys) :
    xs = ys := by
  unfold Lexes at *
  generalize hb : ([] : Text) = b at h1
  induction h1 generalizing ys with
  | nil t =>
    subst hb
    cases hx : ys with
    | nil => rfl
    | cons y ys' =>
      have := h2.text
      have h3 := h2.kinds y (by rw [hx]; exact List.mem_cons_self ..)
      rw [hx] at this
      simp at this
      exact absurd this.1 h3.2
  | @cons u r k ts r' hu hf hrest ih =>
    generalize ha : u ++ r = a at h2
    cases h2 with
    | nil =>
      simp at ha
      exact absurd ha.1 hu
    | @cons u' r2 k' ts' _ hu' hf' hrest' =>
      rw [← ha, hf] at hf'
      injection hf' with hf'
      injection hf' with h1 h2
      obtain ⟨rfl, rfl⟩ := prefix_unique ha h2
      rw [ih hrest' hb, h1]

theorem Steps.cancel {a b c : Text} {xs ys : List (Kind × Text)} (hx : Steps a xs b)
    (h : Steps a (xs ++ ys) c) : Steps b ys c := by
  induction hx with
  | nil => exact h
  | @cons u r k ts r' hu hf hrest ih =>
    apply ih
    generalize ha : u ++ r = a at h
    rw [List.cons_append] at h
    cases h with
    | cons hu' hf' hrest' =>
      rw [List.append_cancel_left ha]
      exact hrest'

theorem Steps.lexes_rest {a b : Text} {xs zs : List (Kind × Text)} (hx : Steps a xs b)
    (h : Lexes a zs) : ∃ ys, zs = xs ++ ys ∧ Lexes b ys := by
  induction hx generalizing zs with
  | nil => exact ⟨zs, rfl, h⟩
  | @cons u r k ts r' hu hf hrest ih =>
    unfold Lexes at h
    generalize ha : u ++ r = a at h
    cases h with
    | nil => simp at ha; exact absurd ha.1 hu
    | @cons u' r2 k' ts' _ hu' hf' hrest' =>
      rw [← ha, hf] at hf'
      injection hf' with hf'
      injection hf' with e1 e2
      obtain ⟨rfl, rfl⟩ := prefix_unique ha e2
      obtain ⟨ys, h1, h2⟩ := ih hrest'
      exact ⟨ys, by rw [h1, e1]; rfl, h2⟩

theorem Lexes.findToken_total {t : Text} {ts : List (Kind × Text)} (h : Lexes t ts) :
    ∃ k l, findToken t = some (k, l) := by
  cases h with
  | nil => exact ⟨_, _, rfl⟩
  | cons _ hf _ => exact ⟨_, _, hf⟩

/-! `bump`. -/

/-- Remaining bytes after the current token. -/
def Lexer.remaining (lx : Lexer) : Nat := byteLen lx.text - lx.curEnd

theorem bumpFuel_irrelevant (n m : Nat) (lx : Lexer) (hn : lx.remaining < n) (hm : lx.remaining < m) :
    lx.bumpFuel n = lx.bumpFuel m := by
  induction n generalizing m lx with
  | zero => omega
  | succ n ih =>
    cases m with
    | zero => omega
    | succ m =>
      simp only [Lexer.bumpFuel]
      cases hs : sliceFrom lx.text lx.curEnd with
      | none => rfl
      | some rest =>
        simp only
        cases hf : findToken rest with
        | none => rfl
        | some kl =>
          obtain ⟨k, len⟩ := kl
          simp only
          split
          · rename_i ht
            obtain ⟨p, hp, hlen⟩ := sliceFrom_some hs
            have hpos : 0 < len ∧ 0 < byteLen rest := by
              cases rest with
              | nil => cases hf; cases ht
              | cons c cs =>
                have := utf8Size_pos c
                exact ⟨(findToken_cons hf).2, by rw [byteLen_cons]; omega⟩
            have ht : byteLen lx.text = byteLen p + byteLen rest := by rw [hp, byteLen_append]
            have hr : (Lexer.advanceWithToken { lx with curStart := byteLen lx.text - byteLen rest } k
                len).remaining < lx.remaining := by
              simp only [Lexer.remaining, Lexer.advanceWithToken]
              omega
            exact ih m _ (by omega) (by omega)
          · rfl

/-- The equation of `bump` (lexer.rs:116-132): the fuel of the model never runs out. -/
theorem bump_eq (lx : Lexer) :
    lx.bump =
      match sliceFrom lx.text lx.curEnd with
      | none => none
      | some rest =>
        match findToken rest with
        | none => none
        | some (kind, len) =>
          if kind.isTrivia then
            (Lexer.advanceWithToken { lx with curStart := byteLen lx.text - byteLen rest } kind len).bump
          else
            some (Lexer.advanceWithToken { lx with curStart := byteLen lx.text - byteLen rest } kind len) := by
  conv => lhs; unfold Lexer.bump
  simp only [Lexer.bumpFuel]
  cases hs : sliceFrom lx.text lx.curEnd with
  | none => rfl
  | some rest =>
    simp only
    cases hf : findToken rest with
    | none => rfl
    | some kl =>
      obtain ⟨k, len⟩ := kl
      simp only
      split
      · rename_i ht
        unfold Lexer.bump
        apply bumpFuel_irrelevant
        · obtain ⟨p, hp, hlen⟩ := sliceFrom_some hs
          have hpos : 0 < len ∧ 0 < byteLen rest := by
            cases rest with
            | nil => cases hf; cases ht
            | cons c cs =>
              have := utf8Size_pos c
              exact ⟨(findToken_cons hf).2, by rw [byteLen_cons]; omega⟩
          have ht : byteLen lx.text = byteLen p + byteLen rest := by rw [hp, byteLen_append]
          simp only [Lexer.remaining, Lexer.advanceWithToken]
          omega
        · simp only [Lexer.remaining, Lexer.advanceWithToken]
          omega
      · rfl

/-- What holds of the lexer state between operations: the recorded tokens are the tokens of
the text read one after the other, the last one being the current token. -/
structure Valid (lx : Lexer) (done : List (Kind × Text)) (rest : Text) : Prop where
  steps : Steps lx.text done rest
  cur : findToken rest = some (lx.token.kind, lx.token.len)
  all : lx.allTokens = done.map (fun t => (⟨t.1, byteLen t.2⟩ : Token)) ++ [lx.token]
  start : lx.curStart + byteLen rest = byteLen lx.text
  stop : lx.curEnd = lx.curStart + lx.token.len

theorem new_valid {t : Text} {lx : Lexer} (h : new t = some lx) :
    Valid lx [] t ∧ lx.text = t := by
  unfold new at h
  split at h
  · cases h
  · rename_i kind len hf
    cases h
    exact ⟨⟨.nil _, hf, rfl, by simp, by simp⟩, rfl⟩

theorem advance_valid {lx : Lexer} {done : List (Kind × Text)} {u r : Text} {k : Kind} {len : Nat}
    (hv : Valid lx done (u ++ r)) (hu : byteLen u = lx.token.len) (hne : lx.token.kind ≠ .EOF)
    (hf : findToken r = some (k, len)) :
    Valid (Lexer.advanceWithToken { lx with curStart := byteLen lx.text - byteLen r } k len)
      (done ++ [(lx.token.kind, u)]) r := by
  have hune : u ≠ [] := by
    rintro rfl
    have hc := hv.cur
    cases hr : ([] ++ r : Text) with
    | nil => rw [hr] at hc; exact hne (findToken_nil hc).1
    | cons c cs => rw [hr] at hc; have := (findToken_cons hc).2; simp at hu; omega
  have ht : byteLen lx.text ≥ byteLen r := by
    have := hv.start; rw [byteLen_append] at this; omega
  refine ⟨?_, hf, ?_, ?_, rfl⟩
  · refine hv.steps.append (.cons hune ?_ (.nil r))
    rw [hu]; exact hv.cur
  · simp only [Lexer.advanceWithToken, List.map_append, List.map_cons, List.map_nil]
    rw [hv.all, hu]
  · simp only [Lexer.advanceWithToken]
    omega

/-- `bump` on a state whose current token is not the end of input: it reads the current token,
then trivia, and stops at a token that is not trivia. -/
theorem bump_valid {lx lx' : Lexer} {done : List (Kind × Text)} {rest : Text}
    (hv : Valid lx done rest) (hne : lx.token.kind ≠ .EOF) (h : lx.bump = some lx') :
    ∃ u trivia rest', rest = u ++ ((trivia.map Prod.snd).flatten ++ rest') ∧
      byteLen u = lx.token.len ∧ u ≠ [] ∧
      (∀ x ∈ trivia, x.1.isTrivia = true) ∧
      Valid lx' (done ++ (lx.token.kind, u) :: trivia) rest' ∧
      lx'.token.kind.isTrivia = false ∧ lx'.text = lx.text := by
  generalize hm : byteLen rest = m
  induction m using Nat.strongRecOn generalizing lx done rest with
  | ind m ih =>
    rw [bump_eq] at h
    cases hs : sliceFrom lx.text lx.curEnd with
    | none => rw [hs] at h; cases h
    | some r =>
      rw [hs] at h
      simp only at h
      cases hf : findToken r with
      | none => rw [hf] at h; cases h
      | some kl =>
        obtain ⟨k, len⟩ := kl
        rw [hf] at h
        simp only at h
        -- the current token ends at a character boundary
        obtain ⟨p, hp, hlen⟩ := sliceFrom_some hs
        have htext := hv.steps.text
        have hstart := hv.start
        have hstop := hv.stop
        have hsum : byteLen lx.text = byteLen p + byteLen r := by rw [hp, byteLen_append]
        have hpre : byteLen (done.map Prod.snd).flatten = lx.curStart := by
          have := congrArg byteLen htext
          rw [byteLen_append] at this
          omega
        obtain ⟨u, hu1, hu2⟩ : ∃ u, rest = u ++ r ∧ byteLen u = lx.token.len := by
          obtain ⟨u, h1, h2⟩ := Edits.prefix_split (htext.symm.trans hp) (by omega)
          refine ⟨u, h2, ?_⟩
          have := congrArg byteLen h1
          rw [byteLen_append] at this
          omega
        rw [hu1] at hv
        have hv' := advance_valid hv hu2 hne hf
        have hune : u ≠ [] := by
          rintro rfl
          have hc := hv.cur
          cases hr : ([] ++ r : Text) with
          | nil => rw [hr] at hc; exact hne (findToken_nil hc).1
          | cons c cs => rw [hr] at hc; have := (findToken_cons hc).2; simp at hu2; omega
        split at h
        · rename_i htriv
          have hne' : (Lexer.advanceWithToken { lx with curStart := byteLen lx.text - byteLen r } k
              len).token.kind ≠ .EOF := by
            simp only [Lexer.advanceWithToken]
            rintro rfl; cases htriv
          have hlt : byteLen r < m := by
            have := congrArg byteLen hu1
            rw [byteLen_append] at this
            have hpos : 0 < byteLen u := by
              cases u with
              | nil => exact absurd rfl hune
              | cons c cs => have := utf8Size_pos c; rw [byteLen_cons]; omega
            omega
          obtain ⟨u2, triv, rest', h1, h2, h2n, h3, h4, h5, h6⟩ := ih _ hlt hv' hne' h rfl
          refine ⟨u, (k, u2) :: triv, rest', ?_, hu2, hune, ?_, ?_, h5, h6⟩
          · rw [hu1, h1]; simp
          · intro x hx
            rw [List.mem_cons] at hx
            rcases hx with rfl | hx
            · exact htriv
            · exact h3 x hx
          · rw [show done ++ (lx.token.kind, u) :: (k, u2) :: triv
                = (done ++ [(lx.token.kind, u)]) ++ (k, u2) :: triv by simp]
            exact h4
        · rename_i htriv
          cases h
          refine ⟨u, [], r, by simp [hu1], hu2, hune, by simp, hv', ?_, rfl⟩
          simpa [Lexer.advanceWithToken] using htriv

end Verif.Lexer
