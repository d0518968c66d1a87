import Verif.Parser.Samples

set_option autoImplicit false

/-! C58: what whitespace and comments do to the syntax tree. -/

namespace Verif.Parser

open Language Lexer

/-- The same tokens, except for the texts of whitespace and comments. -/
inductive SameLayout : List (Kind × Text) → List (Kind × Text) → Prop where
  | nil : SameLayout [] []
  | cons {k : Kind} {t1 t2 : Text} {r1 r2 : List (Kind × Text)} :
      (k.isTrivia = false → t1 = t2) → SameLayout r1 r2 → SameLayout ((k, t1) :: r1) ((k, t2) :: r2)

theorem SameLayout.headKind {ts us : List (Kind × Text)} (h : SameLayout ts us) :
    headKind ts = headKind us := by
  cases h <;> rfl

theorem SameLayout.dropWhile {ts us : List (Kind × Text)} (h : SameLayout ts us) :
    SameLayout (ts.dropWhile (·.1 == .WHITESPACE)) (us.dropWhile (·.1 == .WHITESPACE)) := by
  induction h with
  | nil => exact .nil
  | cons ht h ih =>
    rename_i k _ _ _ _
    rw [List.dropWhile_cons, List.dropWhile_cons]
    cases hk : k == .WHITESPACE with
    | true => exact ih
    | false => exact .cons ht h

theorem SameLayout.drop {ts us : List (Kind × Text)} (h : SameLayout ts us) :
    SameLayout (ts.drop 1) (us.drop 1) := by
  cases h with
  | nil => exact .nil
  | cons _ h => exact h

theorem SameLayout.annotSig {ts us : List (Kind × Text)} (h : SameLayout ts us) :
    annotSig ts = annotSig us := by
  induction h with
  | nil => rfl
  | cons ht h ih =>
    rename_i k t1 t2 r1 r2
    unfold Parser.annotSig
    cases hk : k.isTrivia with
    | true => simpa using ih
    | false =>
      simp only [Bool.false_eq_true, if_false, ih, Tok.of, ht hk, h.dropWhile.headKind, h.drop.headKind]

/-- The text of leading whitespace or of a leading comment does not matter. -/
theorem run_root_trivia (n : Nat) {k : Kind} (hk : k.isTrivia = true) (t1 t2 : Text) (a b c d : Kind)
    (w : List Tok) :
    run tokenLevel (callN tokenLevel body n) root ⟨⟨k, t1, a, b⟩ :: w, 0, 0, .nil, []⟩ =
      run tokenLevel (callN tokenLevel body n) root ⟨⟨k, t2, c, d⟩ :: w, 0, 0, .nil, []⟩ := by
  cases n with
  | zero => rfl
  | succ n =>
    cases k with
    | WHITESPACE => rfl
    | COMMENT => rfl
    | _ => cases hk

theorem SameLayout.run_root {ts us : List (Kind × Text)} (h : SameLayout ts us) (n : Nat) :
    run tokenLevel (callN tokenLevel body n) root ⟨annot ts, 0, 0, .nil, []⟩ =
      run tokenLevel (callN tokenLevel body n) root ⟨annot us, 0, 0, .nil, []⟩ := by
  cases h with
  | nil => rfl
  | cons ht h =>
    rename_i k t1 t2 r1 r2
    cases hk : k.isTrivia with
    | true =>
      simp only [annot, h.annotSig]
      exact run_root_trivia n hk _ _ _ _ _ _ _
    | false =>
      simp only [annot, h.annotSig, Tok.of, ht hk, h.dropWhile.headKind, h.drop.headKind]

/-- Two outcomes are the same up to trivia and the positions of errors. -/
def SameOutcome : Parsed → Parsed → Prop
  | .ok k tree errors, o => ∃ tree' errors', o = .ok k tree' errors' ∧ tree'.shapes = tree.shapes ∧
      messages errors' = messages errors
  | .panic w, o => o = .panic w
  | .outOfFuel, _ => False

/-- **C58, partial.**  Changing the length of whitespace and the texts of comments changes neither
the syntax tree, up to whitespace and comments, nor the error messages, whether the text is a
valid program or not; a text that makes the parser panic still does.  Missing: inserting or
removing whitespace or comments between tokens; that can make a difference, see below. -/
theorem parse_layout_partial {text text' : Text} {ts ts' : List (Kind × Text)} (h : Lexes text ts)
    (h' : Lexes text' ts') (hs : SameLayout ts ts') : SameOutcome (parse text) (parse text') := by
  have f1 := parse_follows h (n := maxDepth text + maxDepth text') (Nat.le_add_right _ _)
  have f2 := parse_follows h' (n := maxDepth text + maxDepth text') (Nat.le_add_left _ _)
  rw [← hs.run_root] at f2
  generalize run tokenLevel (callN tokenLevel body (maxDepth text + maxDepth text')) root
    ⟨annot ts, 0, 0, .nil, []⟩ = o at f1 f2
  cases o with
  | ok a s =>
    obtain ⟨kids, tree, errors, e1, e2, e3, e4⟩ := f1
    obtain ⟨kids', tree', errors', e1', e2', e3', e4'⟩ := f2
    rw [e1] at e1'
    cases e1'
    rw [e2, e2']
    exact ⟨tree', errors', rfl, e3'.trans e3.symm, e4'.trans e4.symm⟩
  | panic w =>
    have f1 : parse text = .panic w := f1
    have f2 : parse text' = .panic w := f2
    rw [f1, f2]
    rfl
  | outOfFuel => exact absurd f1 id

/-- Witness of `parse_layout_partial`. -/
example : ∃ ts ts', Lexes "module  M { // a\n fun }".toList ts ∧
    Lexes "module\nM { // other\n\n\tfun }".toList ts' ∧ SameLayout ts ts' ∧ ts ≠ ts' := by
  refine ⟨[(.MODULE_KW, "module".toList), (.WHITESPACE, "  ".toList), (.IDENT, "M".toList), (.WHITESPACE, " ".toList),
      (.L_BRACE, "{".toList), (.WHITESPACE, " ".toList), (.COMMENT, "// a\n".toList), (.WHITESPACE, " ".toList),
      (.FUN_KW, "fun".toList), (.WHITESPACE, " ".toList), (.R_BRACE, "}".toList)],
    [(.MODULE_KW, "module".toList), (.WHITESPACE, "\n".toList), (.IDENT, "M".toList), (.WHITESPACE, " ".toList),
      (.L_BRACE, "{".toList), (.WHITESPACE, " ".toList), (.COMMENT, "// other\n".toList), (.WHITESPACE, "\n\t".toList),
      (.FUN_KW, "fun".toList), (.WHITESPACE, " ".toList), (.R_BRACE, "}".toList)],
    lexes_of_check (by decide +kernel), lexes_of_check (by decide +kernel), ?_, by decide⟩
  repeat' (first | exact .nil | refine .cons (by decide) ?_)

/-- **C58 does not hold**: a space before `{` decides whether `a::b{x}` is parsed. -/
theorem space_changes_tree :
    errorsOf "script { fun f() { a::b {x}; } }".toList = some [] ∧
    errorsOf "script { fun f() { a::b{x}; } }".toList ≠ some [] := by
  constructor <;> decide +kernel

/-- **C58 does not hold**: a space before `*` decides whether `a::b*c` is parsed. -/
theorem space_changes_product :
    errorsOf "script { fun f() { a::b * c; } }".toList = some [] ∧
    errorsOf "script { fun f() { a::b*c; } }".toList ≠ some [] := by
  constructor <;> decide +kernel

/-- **C58 does not hold**: a comment behind the name of a module makes the parser panic, since it
takes the name for one that is not followed by `::`. -/
theorem comment_changes_tree :
    errorsOf "module A ::M {}".toList = some [] ∧
    parse "module A //c\n ::M {}".toList = .panic .stuck := by
  constructor <;> decide +kernel

end Verif.Parser
