import Verif.Parser.SoundTop
import Verif.Parser.Samples

set_option autoImplicit false

/-!
Properties C68 and C69: what the absence of syntax errors means.
-/

namespace Verif.Parser

open Language Lexer

/-! ### C68 -/

/-- **C68, partial.**  If the parser reports no error, the significant tokens of the text are a
file of the lenient language, and the tree is the one this grammar gives it.  Missing: that they
are a file of the language of `Language.lean`; they need not be, see below, and `Lenient.lean`
lists all the ways in which they may fail to be. -/
theorem accepted_is_lenient_partial {text : Text} {kind : Kind} {tree : Green}
    (hp : parse text = .ok kind tree []) :
    ∃ ts, Lexes text ts ∧ DerivesBy Lenient [.nt .file] (significant ts) tree.shapes :=
  accepted_is_lenient hp

/-- The parser accepts the text without an error. -/
def accepts (text : Text) : Bool :=
  match parse text with
  | .ok _ _ [] => true
  | _ => false

theorem accepts_iff {text : Text} : accepts text = true ↔ ∃ kind tree, parse text = .ok kind tree [] := by
  unfold accepts
  constructor
  · intro h
    split at h
    · rename_i k t hp; exact ⟨k, t, hp⟩
    · cases h
  · rintro ⟨k, t, hp⟩
    rw [hp]

/-- Texts that meet the hypothesis. -/
example : accepts "module 0x1::M { struct S { a: u8 } fun f(x: u8): u8 { let y = x + 1; g(y * 2) } }".toList = true := by
  decide +kernel
/-- And one that does not. -/
example : accepts "module M { fun f( }".toList = false := by decide +kernel

/-- Whatever makes the parser read a declaration contains a `{`. -/
def opens : Sym → Bool
  | .tok .L_BRACE | .nt .itemBody | .nt .moduleList | .nt .moduleDef | .nt .scriptDef | .nt .addressDef => true
  | _ => false

theorem derives_opens {syms : List Sym} {ts : List (Kind × Text)} {sh : List Shape} (h : Derives syms ts sh)
    (ho : syms.any opens = true) : ts.any (fun x => x.1 == .L_BRACE) = true := by
  induction h with
  | nil => cases ho
  | @tok k t syms ts sh _ ih =>
    rw [List.any_cons, Bool.or_eq_true] at ho ⊢
    rcases ho with ho | ho
    · left
      cases k <;> first | rfl | cases ho
    · exact .inr (ih ho)
  | hex _ ih =>
    rw [List.any_cons, Bool.or_eq_true] at ho ⊢
    rcases ho with ho | ho
    · cases ho
    · exact .inr (ih ho)
  | nt r _ _ ih1 ih2 =>
    rw [List.any_cons, Bool.or_eq_true] at ho
    rw [List.any_append, Bool.or_eq_true]
    rcases ho with ho | ho
    · left
      refine ih1 ?_
      cases r <;> first | rfl | cases ho
    · exact .inr (ih2 ho)

/-- A file of the language that is not empty contains a `{`. -/
theorem file_opens {ts : List (Kind × Text)} {sh : List Shape} (h : Derives [.nt .file] ts sh) (hne : ts ≠ []) :
    ts.any (fun x => x.1 == .L_BRACE) = true := by
  generalize hs : [Sym.nt .file] = syms at h
  cases h with
  | nil => cases hs
  | tok _ => cases hs
  | hex _ => cases hs
  | nt r h1 h2 =>
    cases hs
    cases h2
    rw [List.append_nil] at hne ⊢
    cases r with
    | file_nil => cases h1; exact absurd rfl hne
    | file_module => exact derives_opens h1 rfl
    | file_script => exact derives_opens h1 rfl
    | file_address => exact derives_opens h1 rfl

/-- **C68 fails** in full: `module M;` is no file, but the parser reports no error. -/
theorem accepted_is_not_a_file : ∃ text ts kind tree, Lexes text ts ∧ parse text = .ok kind tree [] ∧
    ¬ ∃ sh, Derives [.nt .file] (significant ts) sh := by
  have ha : accepts "module M;".toList = true := by decide +kernel
  obtain ⟨kind, tree, hp⟩ := accepts_iff.1 ha
  refine ⟨_, [(.MODULE_KW, "module".toList), (.WHITESPACE, " ".toList), (.IDENT, "M".toList),
    (.SEMICOLON, ";".toList)], kind, tree, lexes_of_check (by decide +kernel), hp, ?_⟩
  rintro ⟨sh, hd⟩
  have := file_opens hd (by decide)
  revert this
  decide

/-- The liberties of `Lenient.lean` are taken: each of these texts is accepted. -/
example : ["module M;", "module 0x1::M;", "script;",
    "module M { struct S<T:, U: copy +> {} }",
    "module M { fun f() { let x let y: u8 let z = 1 let v: u8 = x y z } }",
    "module M { fun f() { S { 1 + 2, x.y }; (1 2 3) } }"].all (fun t => accepts t.toList) = true := by
  decide +kernel

/-! ### C69 -/

/-- Every closing brace or parenthesis closes the one opened last, and all are closed.  `open_`
are the brackets that are open, the last one first. -/
def nested (open_ : List Kind) : List Kind → Bool
  | [] => open_.isEmpty
  | k :: ks =>
    if k == .L_BRACE || k == .L_PAREN then nested (k :: open_) ks
    else if k == .R_BRACE then open_.head? == some .L_BRACE && nested open_.tail ks
    else if k == .R_PAREN then open_.head? == some .L_PAREN && nested open_.tail ks
    else nested open_ ks

def Sym.kind : Sym → Option Kind
  | .tok k => some k
  | _ => none

/-- No bracket. -/
def plain (k : Kind) : Bool := k != .L_BRACE && k != .R_BRACE && k != .L_PAREN && k != .R_PAREN

theorem nested_plain {k : Kind} (h : plain k = true) (st ks : List Kind) : nested st (k :: ks) = nested st ks := by
  cases k <;> first | rfl | cases h

theorem replicate_kinds (n : Nat) (x : NT) : (List.replicate n (Sym.nt x)).filterMap Sym.kind = [] := by
  induction n with
  | zero => rfl
  | succ n ih => exact ih

theorem precedence_plain {k : Kind} {q : Nat} (h : precedence k = some q) : plain k = true := by
  cases k <;> first | rfl | cases h

/-- In every rule the brackets match. -/
theorem rule_nested {x : NT} {k : Option Kind} {rhs : List Sym} (r : Lenient x k rhs) (st ks : List Kind) :
    nested st (rhs.filterMap Sym.kind ++ ks) = nested st ks := by
  cases r with
  | strict r =>
    cases r <;> first
      | rfl
      | (rename_i h; exact nested_plain (precedence_plain h) _ _)
  | parens n =>
    simp only [List.filterMap_cons, Sym.kind, List.filterMap_append, replicate_kinds, List.filterMap_nil,
      List.cons_append, List.nil_append]
    rfl
  | _ => rfl

theorem derives_nested {syms : List Sym} {ts : List (Kind × Text)} {sh : List Shape}
    (h : DerivesBy Lenient syms ts sh) :
    ∀ st ks, nested st (ts.map Prod.fst ++ ks) = nested st (syms.filterMap Sym.kind ++ ks) := by
  induction h with
  | nil => intro st ks; rfl
  | @tok k t syms ts sh _ ih =>
    intro st ks
    show nested st (k :: (ts.map Prod.fst ++ ks)) = nested st (k :: (syms.filterMap Sym.kind ++ ks))
    by_cases hp : plain k = true
    · rw [nested_plain hp, nested_plain hp, ih]
    · have : k = .L_BRACE ∨ k = .R_BRACE ∨ k = .L_PAREN ∨ k = .R_PAREN := by
        revert hp; cases k <;> simp [plain]
      rcases this with rfl | rfl | rfl | rfl
      · exact ih _ _
      · exact congrArg (_ && ·) (ih _ _)
      · exact ih _ _
      · exact congrArg (_ && ·) (ih _ _)
  | @hex t syms ts sh _ ih =>
    intro st ks
    show nested st (.INTEGER_NUMBER :: (ts.map Prod.fst ++ ks)) = _
    rw [nested_plain rfl, ih]
    rfl
  | @nt x k rhs syms us ts inner sh r _ _ ih1 ih2 =>
    intro st ks
    rw [List.map_append, List.append_assoc, ih1, rule_nested r, ih2]
    rfl

theorem nested_significant (ts : List (Kind × Text)) (st : List Kind) :
    nested st ((significant ts).map Prod.fst) = nested st (ts.map Prod.fst) := by
  induction ts generalizing st with
  | nil => rfl
  | cons x ts ih =>
    obtain ⟨k, t⟩ := x
    unfold significant at ih ⊢
    rw [List.filter_cons, List.map_cons]
    by_cases hp : plain k = true
    · rw [nested_plain hp, ← ih]
      split
      · rw [List.map_cons, nested_plain hp]
      · rfl
    · have : k = .L_BRACE ∨ k = .R_BRACE ∨ k = .L_PAREN ∨ k = .R_PAREN := by
        revert hp; cases k <;> simp [plain]
      rcases this with rfl | rfl | rfl | rfl
      · exact ih _
      · exact congrArg (_ && ·) (ih _)
      · exact ih _
      · exact congrArg (_ && ·) (ih _)

/-- **C69.**  A text whose braces and parentheses, outside of comments and strings, do not match is
never parsed without an error. -/
theorem accepted_is_nested {text : Text} {kind : Kind} {tree : Green} {ts : List (Kind × Text)}
    (hl : Lexes text ts) (hp : parse text = .ok kind tree []) : nested [] (ts.map Prod.fst) = true := by
  obtain ⟨ts', hl', hd⟩ := accepted_is_lenient hp
  have := derives_nested hd [] []
  rw [List.append_nil, hl'.unique hl, nested_significant] at this
  rw [this]
  rfl

/-- A text with a missing brace: it has tokens, and the parser returns. -/
example : ∃ ts kind tree errors, Lexes "module M { fun f() { }".toList ts ∧
    parse "module M { fun f() { }".toList = .ok kind tree errors ∧ nested [] (ts.map Prod.fst) = false := by
  have h : (match parse "module M { fun f() { }".toList with | .ok _ _ _ => true | _ => false) = true := by
    decide +kernel
  split at h
  · rename_i kind tree errors hp
    refine ⟨[(.MODULE_KW, "module".toList), (.WHITESPACE, " ".toList), (.IDENT, "M".toList),
      (.WHITESPACE, " ".toList), (.L_BRACE, "{".toList), (.WHITESPACE, " ".toList), (.FUN_KW, "fun".toList),
      (.WHITESPACE, " ".toList), (.IDENT, "f".toList), (.L_PAREN, "(".toList), (.R_PAREN, ")".toList),
      (.WHITESPACE, " ".toList), (.L_BRACE, "{".toList), (.WHITESPACE, " ".toList), (.R_BRACE, "}".toList)],
      kind, tree, errors, lexes_of_check (by decide +kernel), hp, by decide⟩
  · cases h

end Verif.Parser
