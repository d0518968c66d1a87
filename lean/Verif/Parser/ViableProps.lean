import Verif.Parser.FirstError
import Verif.Parser.SoundProps

set_option autoImplicit false

/-!
Properties C86 and C87: the first syntax error is not reported too late.
-/

namespace Verif.Parser

open Language Lexer

/-- Something can be put behind the tokens `ts` so that the whole is a file, by the rules `R`. -/
def BeginsFile (R : NT → Option Kind → List Sym → Prop) (ts : List (Kind × Text)) : Prop :=
  ∃ rest shapes, DerivesBy R [.nt .file] (significant ts ++ rest) shapes

theorem BeginsFile.prefix {R : NT → Option Kind → List Sym → Prop} {a b : List (Kind × Text)}
    (h : BeginsFile R (a ++ b)) : BeginsFile R a := by
  obtain ⟨rest, shapes, h⟩ := h
  rw [significant_append, List.append_assoc] at h
  exact ⟨_, _, h⟩

/-! ### C86 -/

/-- **C86, partial.**  The tokens in front of the first error begin a file.  Missing: that they begin a
file of the language of `Language.lean`; by what the parser lets pass (C68) they may be the beginning
of a file of the lenient language only, see below. -/
theorem before_first_error_partial {text : Text} {kind : Kind} {tree : Green} {e : SyntaxError}
    {es : List SyntaxError} (hp : parse text = .ok kind tree (e :: es)) :
    ∃ ts before after, Lexes text ts ∧ ts = before ++ after ∧
      e.offset = byteLen (before.map Prod.snd).flatten ∧ BeginsFile Lenient before := by
  obtain ⟨ts, before, after, rest, shapes, h1, h2, h3, h4⟩ := viable_prefix hp
  exact ⟨ts, before, after, h1, h2, h3, rest, shapes, h4⟩

theorem byteLen_texts (a b : List (Kind × Text)) : byteLen ((a ++ b).map Prod.snd).flatten
    = byteLen (a.map Prod.snd).flatten + byteLen (b.map Prod.snd).flatten := by
  rw [List.map_append, List.flatten_append, byteLen_append]

/-- **C86, partial.**  If no file begins with the tokens up to and including `x`, there is an error, and
the first one is reported at the start of `x` or before it. -/
theorem first_error_not_late_partial {text : Text} {kind : Kind} {tree : Green} {errors : List SyntaxError}
    {before after : List (Kind × Text)} {x : Kind × Text} (hl : Lexes text (before ++ x :: after))
    (hb : ¬ BeginsFile Lenient (before ++ [x])) (hp : parse text = .ok kind tree errors) :
    ∃ e es, errors = e :: es ∧ e.offset ≤ byteLen (before.map Prod.snd).flatten := by
  have hs : before ++ x :: after = (before ++ [x]) ++ after := by simp
  cases errors with
  | nil =>
    obtain ⟨ts, h1, h2⟩ := accepted_is_lenient hp
    rw [h1.unique hl, hs, ← List.append_nil (significant _)] at h2
    exact absurd (BeginsFile.prefix ⟨[], _, h2⟩) hb
  | cons e es =>
    refine ⟨e, es, rfl, ?_⟩
    obtain ⟨ts, b, a, h1, h2, h3, h4⟩ := before_first_error_partial hp
    have h5 : b ++ a = before ++ x :: after := by rw [← h2, h1.unique hl]
    rw [h3]
    rcases List.append_eq_append_iff.1 h5 with ⟨c, rfl, _⟩ | ⟨c, rfl, hc⟩
    · rw [byteLen_texts]
      omega
    · cases c with
      | nil => rw [List.append_nil]; exact Nat.le_refl _
      | cons y c =>
        cases hc
        refine absurd (BeginsFile.prefix (b := c) ?_) hb
        rw [List.append_assoc]
        exact h4

/-- The offset of the first error. -/
def firstOffset (text : Text) : Option Nat :=
  match parse text with
  | .ok _ _ (e :: _) => some e.offset
  | _ => none

theorem firstOffset_some {text : Text} {n : Nat} (h : firstOffset text = some n) :
    ∃ kind tree e es, parse text = .ok kind tree (e :: es) ∧ e.offset = n := by
  unfold firstOffset at h
  split at h
  · rename_i kind tree e es hp
    cases h
    exact ⟨kind, tree, e, es, hp, rfl⟩
  · cases h

/-- Errors are found where the text goes wrong: at a missing value, a missing name and a comma. -/
example : firstOffset "module M { fun f() { let x = ; } }".toList = some 29 ∧
    firstOffset "module M {} module {}".toList = some 18 ∧
    firstOffset "module M { fun f() { (1, }".toList = some 23 := by
  decide +kernel

/-- The first of `;` and `{`. -/
def firstStop (ts : List (Kind × Text)) : Option Kind :=
  (ts.map Prod.fst).find? fun k => k == .SEMICOLON || k == .L_BRACE

/-- Neither `;` nor `{` in it. -/
def flat : Sym → Bool
  | .tok k => k != .SEMICOLON && k != .L_BRACE
  | .hex => true
  | .nt .name | .nt .address => true
  | _ => false

def leads : List Sym → Bool
  | [] => false
  | s :: syms => opens s || (flat s && leads syms)

theorem derives_flat {syms : List Sym} {ts : List (Kind × Text)} {sh : List Shape} (h : Derives syms ts sh)
    (hf : syms.all flat = true) : firstStop ts = none := by
  induction h with
  | nil => rfl
  | @tok k t syms ts sh _ ih =>
    rw [List.all_cons, Bool.and_eq_true] at hf
    have : (k == .SEMICOLON || k == .L_BRACE) = false := by
      have := hf.1
      cases k <;> first | rfl | cases this
    show List.find? _ (k :: ts.map Prod.fst) = none
    rw [List.find?_cons, this]
    exact ih hf.2
  | hex _ ih =>
    rw [List.all_cons, Bool.and_eq_true] at hf
    exact ih hf.2
  | nt r _ _ ih1 ih2 =>
    rw [List.all_cons, Bool.and_eq_true] at hf
    unfold firstStop at ih1 ih2 ⊢
    rw [List.map_append, List.find?_append, ih2 hf.2, ih1 ?_]
    · rfl
    · cases r <;> first | rfl | cases hf.1

theorem derives_leads {syms : List Sym} {ts : List (Kind × Text)} {sh : List Shape} (h : Derives syms ts sh)
    (hl : leads syms = true) : firstStop ts = some .L_BRACE := by
  induction h with
  | nil => cases hl
  | @tok k t syms ts sh _ ih =>
    show List.find? _ (k :: ts.map Prod.fst) = _
    rw [List.find?_cons]
    simp only [leads, Bool.or_eq_true, Bool.and_eq_true] at hl
    rcases hl with hl | ⟨h1, h2⟩
    · have : k = .L_BRACE := by cases k <;> first | rfl | cases hl
      subst this
      rfl
    · have : (k == .SEMICOLON || k == .L_BRACE) = false := by
        cases k <;> first | rfl | cases h1
      rw [this]
      exact ih h2
  | hex _ ih =>
    exact ih hl
  | nt r h1 _ ih1 ih2 =>
    simp only [leads, Bool.or_eq_true, Bool.and_eq_true] at hl
    unfold firstStop at ih1 ih2 ⊢
    rw [List.map_append, List.find?_append]
    rcases hl with hl | ⟨hf, hl⟩
    · rw [ih1 (by cases r <;> first | rfl | cases hl)]
      rfl
    · have := derives_flat h1 (by cases r <;> first | rfl | cases hf)
      unfold firstStop at this
      rw [this, ih2 hl]
      rfl

/-- **C86 fails** in full: no file begins with `module M; module`, but the first error of
`module M; module {` is behind that. -/
theorem first_error_late : ∃ text kind tree e es before after, Lexes text (before ++ after) ∧
    parse text = .ok kind tree (e :: es) ∧ e.offset = byteLen (before.map Prod.snd).flatten ∧
    ¬ BeginsFile Rule before := by
  have ho : firstOffset "module M; module {".toList = some 16 := by decide +kernel
  obtain ⟨kind, tree, e, es, hp, he⟩ := firstOffset_some ho
  refine ⟨_, kind, tree, e, es, [(.MODULE_KW, "module".toList), (.WHITESPACE, " ".toList), (.IDENT, "M".toList),
    (.SEMICOLON, ";".toList), (.WHITESPACE, " ".toList), (.MODULE_KW, "module".toList)],
    [(.WHITESPACE, " ".toList), (.L_BRACE, "{".toList)], lexes_of_check (by decide +kernel), hp, by rw [he]; decide, ?_⟩
  rintro ⟨rest, shapes, h⟩
  rw [derivesBy_rule] at h
  have hstop : ∀ ts, firstStop ((.MODULE_KW, "module".toList) :: (.IDENT, "M".toList) ::
      (.SEMICOLON, ";".toList) :: ts) = some .SEMICOLON := fun _ => rfl
  have hts : significant [(.MODULE_KW, "module".toList), (.WHITESPACE, " ".toList), (.IDENT, "M".toList),
    (.SEMICOLON, ";".toList), (.WHITESPACE, " ".toList), (.MODULE_KW, "module".toList)] ++ rest
      = (.MODULE_KW, "module".toList) :: (.IDENT, "M".toList) :: (.SEMICOLON, ";".toList) ::
        (.MODULE_KW, "module".toList) :: rest := rfl
  rw [hts] at h
  have hs := hstop ((.MODULE_KW, "module".toList) :: rest)
  generalize hsyms : [Sym.nt .file] = syms at h
  generalize (Kind.MODULE_KW, "module".toList) :: (Kind.IDENT, "M".toList) :: (Kind.SEMICOLON, ";".toList) ::
        (Kind.MODULE_KW, "module".toList) :: rest = ts at h hs
  cases h with
  | nil => cases hsyms
  | tok _ => cases hsyms
  | hex _ => cases hsyms
  | nt r h1 h2 =>
    cases hsyms
    cases h2
    rw [List.append_nil] at hs
    have no : ∀ {syms ts sh}, Derives syms ts sh → leads syms = true → firstStop ts = some .SEMICOLON → False := by
      intro syms ts sh h1 hl hs
      rw [derives_leads h1 hl] at hs
      cases hs
    cases r with
    | file_nil => cases h1; cases hs
    | file_module => exact no h1 rfl hs
    | file_script => exact no h1 rfl hs
    | file_address => exact no h1 rfl hs

/-! ### C87 -/

/-- Every closing brace or parenthesis closes the one opened last; some may still be open at the end.
`open_` are the brackets that are open, the last one first. -/
def fits (open_ : List Kind) : List Kind → Bool
  | [] => true
  | k :: ks =>
    if k == .L_BRACE || k == .L_PAREN then fits (k :: open_) ks
    else if k == .R_BRACE then open_.head? == some .L_BRACE && fits open_.tail ks
    else if k == .R_PAREN then open_.head? == some .L_PAREN && fits open_.tail ks
    else fits open_ ks

theorem fits_plain {k : Kind} (h : plain k = true) (st ks : List Kind) : fits st (k :: ks) = fits st ks := by
  cases k <;> first | rfl | cases h

theorem nested_fits (a b : List Kind) (st : List Kind) (h : nested st (a ++ b) = true) : fits st a = true := by
  induction a generalizing st with
  | nil => rfl
  | cons k a ih =>
    by_cases hp : plain k = true
    · rw [List.cons_append, nested_plain hp] at h
      rw [fits_plain hp]
      exact ih st h
    · have : k = .L_BRACE ∨ k = .R_BRACE ∨ k = .L_PAREN ∨ k = .R_PAREN := by
        revert hp; cases k <;> simp [plain]
      rcases this with rfl | rfl | rfl | rfl
      · exact ih _ h
      · obtain ⟨h1, h2⟩ := Bool.and_eq_true_iff.1 (show (_ && nested st.tail (a ++ b)) = true from h)
        exact Bool.and_eq_true_iff.2 ⟨h1, ih _ h2⟩
      · exact ih _ h
      · obtain ⟨h1, h2⟩ := Bool.and_eq_true_iff.1 (show (_ && nested st.tail (a ++ b)) = true from h)
        exact Bool.and_eq_true_iff.2 ⟨h1, ih _ h2⟩

theorem fits_significant (ts : List (Kind × Text)) (st : List Kind) :
    fits st ((significant ts).map Prod.fst) = fits st (ts.map Prod.fst) := by
  induction ts generalizing st with
  | nil => rfl
  | cons x ts ih =>
    obtain ⟨k, t⟩ := x
    unfold significant at ih ⊢
    rw [List.filter_cons, List.map_cons]
    by_cases hp : plain k = true
    · rw [fits_plain hp, ← ih]
      split
      · rw [List.map_cons, fits_plain hp]
      · rfl
    · have : k = .L_BRACE ∨ k = .R_BRACE ∨ k = .L_PAREN ∨ k = .R_PAREN := by
        revert hp; cases k <;> simp [plain]
      rcases this with rfl | rfl | rfl | rfl
      · exact ih _
      · exact congrArg (_ && ·) (ih _)
      · exact ih _
      · exact congrArg (_ && ·) (ih _)

/-- **C87.**  If `x` closes a bracket that is not the one opened last, or none is open, the parser reports
an error, and the first one at `x` or before it. -/
theorem wrong_bracket_reported {text : Text} {kind : Kind} {tree : Green} {errors : List SyntaxError}
    {before after : List (Kind × Text)} {x : Kind × Text} (hl : Lexes text (before ++ x :: after))
    (hb : fits [] ((before ++ [x]).map Prod.fst) = false) (hp : parse text = .ok kind tree errors) :
    ∃ e es, errors = e :: es ∧ e.offset ≤ byteLen (before.map Prod.snd).flatten := by
  refine first_error_not_late_partial hl ?_ hp
  rintro ⟨rest, shapes, h⟩
  have h1 := derives_nested h [] []
  rw [List.append_nil, List.map_append] at h1
  have h2 := nested_fits _ _ [] (h1.trans rfl)
  rw [fits_significant, hb] at h2
  cases h2

/-- **C87.**  In front of the first error every closing bracket closes the one opened last. -/
theorem brackets_fit_before_error {text : Text} {kind : Kind} {tree : Green} {e : SyntaxError}
    {es : List SyntaxError} (hp : parse text = .ok kind tree (e :: es)) :
    ∃ ts before after, Lexes text ts ∧ ts = before ++ after ∧
      e.offset = byteLen (before.map Prod.snd).flatten ∧ fits [] (before.map Prod.fst) = true := by
  obtain ⟨ts, before, after, h1, h2, h3, rest, shapes, h4⟩ := before_first_error_partial hp
  refine ⟨ts, before, after, h1, h2, h3, ?_⟩
  have h5 := derives_nested h4 [] []
  rw [List.append_nil, List.map_append] at h5
  rw [← fits_significant]
  exact nested_fits _ _ [] (h5.trans rfl)

/-- Tokens that begin no file. -/
example : ¬ BeginsFile Lenient [(.MODULE_KW, "module".toList), (.IDENT, "M".toList), (.R_BRACE, "}".toList)] := by
  rintro ⟨rest, shapes, h⟩
  have h1 := derives_nested h [] []
  rw [List.append_nil, List.map_append] at h1
  exact absurd (nested_fits _ _ [] (h1.trans rfl)) (by decide)

/-- A text with a parenthesis closed by a brace. -/
example : ∃ before x after kind tree errors, Lexes "module M { fun f() { (1 } }".toList (before ++ x :: after) ∧
    parse "module M { fun f() { (1 } }".toList = .ok kind tree errors ∧
    fits [] ((before ++ [x]).map Prod.fst) = false ∧ byteLen (before.map Prod.snd).flatten = 24 := by
  have h : (match parse "module M { fun f() { (1 } }".toList with | .ok _ _ _ => true | _ => false) = true := by
    decide +kernel
  split at h
  · rename_i kind tree errors hp
    refine ⟨[(.MODULE_KW, "module".toList), (.WHITESPACE, " ".toList), (.IDENT, "M".toList),
      (.WHITESPACE, " ".toList), (.L_BRACE, "{".toList), (.WHITESPACE, " ".toList), (.FUN_KW, "fun".toList),
      (.WHITESPACE, " ".toList), (.IDENT, "f".toList), (.L_PAREN, "(".toList), (.R_PAREN, ")".toList),
      (.WHITESPACE, " ".toList), (.L_BRACE, "{".toList), (.WHITESPACE, " ".toList), (.L_PAREN, "(".toList),
      (.INTEGER_NUMBER, "1".toList), (.WHITESPACE, " ".toList)], (.R_BRACE, "}".toList),
      [(.WHITESPACE, " ".toList), (.R_BRACE, "}".toList)],
      kind, tree, errors, lexes_of_check (by decide +kernel), hp, by decide, by decide⟩
  · cases h

end Verif.Parser
