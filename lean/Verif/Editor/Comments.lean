import Verif.Lexer.Lines
import Verif.Parser.Front

set_option autoImplicit false

/-!
Property C105: what is commented out in the editor is not seen by the server.  The comment markers are those of
`/repo/editors/code/language-configuration.json:4-6`.  How the editor inserts them is described by a relation that allows every
place in the indentation of a line, with and without a space behind the marker, and leaves blank lines alone or not.
-/

namespace Verif.Editor.Comments

open Verif.Lexer Verif.Lexer.Lines Verif.Parser Verif.Language

/-! ## Model -/

/-- language-configuration.json:4, `lineComment`. -/
def lineComment : Text := "//".toList

/-- language-configuration.json:6, `blockComment`. -/
def blockComment : Text × Text := ("/*".toList, "*/".toList)

/-! ## Specification -/

/-- A line before and after the command that comments it out. -/
inductive CommentedOut : Text → Text → Prop where
  | line {indent rest : Text} : (∀ c, c ∈ indent → Space c) → CommentedOut (indent ++ rest) (indent ++ (lineComment ++ rest))
  | spaced {indent rest : Text} : (∀ c, c ∈ indent → Space c) →
      CommentedOut (indent ++ rest) (indent ++ (lineComment ++ ' ' :: rest))
  | blank {l : Text} : (∀ c, c ∈ l → Space c) → CommentedOut l l

/-- The lines before and after the command. -/
inductive AllCommentedOut : List Text → List Text → Prop where
  | nil : AllCommentedOut [] []
  | cons {l l' : Text} {ls ls' : List Text} : CommentedOut l l' → AllCommentedOut ls ls' →
      AllCommentedOut (l :: ls) (l' :: ls')

/-- The length of lines with their newlines. -/
def lengthOf (lines : List Text) : Nat := (lines.map fun l => byteLen l + 1).sum

/-- A text with a selected part turned into a block comment. -/
def blockCommented (before selected after : Text) : Text :=
  before ++ (blockComment.1 ++ (selected ++ (blockComment.2 ++ after)))

/-! ## Lemmas -/

theorem lineTokens_append {n : Nat} {xs ys : List Text} {T : List (Nat × Kind × Text)} (h : LineTokens n (xs ++ ys) T) :
    ∃ A B, T = A ++ B ∧ LineTokens n xs A ∧ LineTokens (n + lengthOf xs) ys B := by
  induction xs generalizing n T with
  | nil => exact ⟨[], T, rfl, .nil n, by simpa [lengthOf] using h⟩
  | cons l ls ih =>
    rw [List.cons_append] at h
    cases h with
    | @cons _ _ _ tl more h1 h2 =>
      obtain ⟨A, B, rfl, hA, hB⟩ := ih h2
      refine ⟨placed n tl ++ A, B, by rw [List.append_assoc], .cons h1 hA, ?_⟩
      have e : n + lengthOf (l :: ls) = n + byteLen l + 1 + lengthOf ls := by
        simp only [lengthOf, List.map_cons, List.sum_cons]; omega
      rw [e]
      exact hB

theorem trivia_of_spaces {w : Text} (h : ∀ c, c ∈ w → Space c) : Trivia w :=
  trivia_ws fun c hc => (isWs_iff c).2 (h c hc)

/-- A line that is commented out has no tokens. -/
theorem commented_line {l l' : Text} (h : CommentedOut l l') (hn : '\n' ∉ l) :
    ∃ tl, Lexes l' tl ∧ ∀ n, placed n tl = [] := by
  have comment : ∀ body : Text, '\n' ∉ body → Lexes ('/' :: '/' :: body) [(.COMMENT, '/' :: '/' :: body)] := by
    intro body hb
    have := Steps.cons (u := '/' :: '/' :: body) (r := []) (k := .COMMENT) (by simp)
      (by rw [List.append_nil]; exact comment_token_at_end hb) (.nil _)
    rwa [List.append_nil] at this
  cases h with
  | @line indent rest hi =>
    have hr : '\n' ∉ rest := fun hm => hn (List.mem_append_right _ hm)
    obtain ⟨ts, h1, h2⟩ := trivia_moves (trivia_of_spaces hi) (comment rest hr)
    exact ⟨ts, h1, fun n => by rw [h2]; simp [placed]⟩
  | @spaced indent rest hi =>
    have hr : '\n' ∉ ' ' :: rest := by
      intro hm
      rcases List.mem_cons.1 hm with h | h
      · exact absurd h (by decide)
      · exact hn (List.mem_append_right _ h)
    obtain ⟨ts, h1, h2⟩ := trivia_moves (trivia_of_spaces hi) (comment (' ' :: rest) hr)
    exact ⟨ts, h1, fun n => by rw [h2]; simp [placed]⟩
  | blank hi =>
    obtain ⟨ts, h1, h2⟩ := trivia_moves (trivia_of_spaces hi) (b := []) (.nil _)
    exact ⟨ts, by simpa using h1, fun n => by rw [h2]; rfl⟩

theorem commented_lines {sel sel' : List Text} (h : AllCommentedOut sel sel') (hn : ∀ l, l ∈ sel → '\n' ∉ l) :
    (∀ l, l ∈ sel' → ∃ tl, Lexes l tl) ∧ ∀ n T, LineTokens n sel' T → T = [] := by
  induction h with
  | nil => exact ⟨fun l hl => (by cases hl), fun n T h => (by cases h; rfl)⟩
  | @cons l l' ls ls' h1 _ ih =>
    obtain ⟨tl, ht, hp⟩ := commented_line h1 (hn l (List.mem_cons_self ..))
    obtain ⟨i1, i2⟩ := ih fun x hx => hn x (List.mem_cons_of_mem _ hx)
    refine ⟨fun x hx => ?_, fun n T h => ?_⟩
    · rcases List.mem_cons.1 hx with rfl | hx
      · exact ⟨tl, ht⟩
      · exact i1 x hx
    · cases h with
      | @cons _ _ _ tl' more g1 g2 =>
        have := g1.unique ht
        subst this
        rw [hp, i2 _ _ g2]
        rfl

/-! ## The property -/

/-- C105: lines that are commented out have no tokens, whatever stands in them; the other lines keep theirs. -/
theorem commented_lines_are_invisible (above sel sel' below : List Text) (hs : AllCommentedOut sel sel')
    (hn : ∀ l, l ∈ sel → '\n' ∉ l) (ha : ∀ l, l ∈ above → ∃ tl, Lexes l tl) (hb : ∀ l, l ∈ below → ∃ tl, Lexes l tl) :
    ∃ ts A B, Lexes (joinLines (above ++ (sel' ++ below))) ts ∧ placed 0 ts = A ++ B ∧ LineTokens 0 above A ∧
      LineTokens (lengthOf above + lengthOf sel') below B := by
  obtain ⟨i1, i2⟩ := commented_lines hs hn
  obtain ⟨ts, h⟩ := (lexes_iff_lines (above ++ (sel' ++ below))).2 (by
    intro l hl
    rcases List.mem_append.1 hl with hl | hl
    · exact ha l hl
    · rcases List.mem_append.1 hl with hl | hl
      · exact i1 l hl
      · exact hb l hl)
  obtain ⟨A, T, e1, hA, hT⟩ := lineTokens_append (tokens_line_by_line _ ts h 0)
  obtain ⟨S, B, e2, hS, hB⟩ := lineTokens_append hT
  have := i2 _ _ hS
  subst this
  rw [Nat.zero_add] at hB
  exact ⟨ts, A, B, h, by rw [e1, e2]; rfl, hA, hB⟩

theorem lineTokens_same {n m : Nat} {ls : List Text} {A B : List (Nat × Kind × Text)} (ha : LineTokens n ls A)
    (hb : LineTokens m ls B) : A.map (·.2) = B.map (·.2) := by
  induction ha generalizing m B with
  | nil => cases hb; rfl
  | @cons n l ls tl more h1 _ ih =>
    cases hb with
    | @cons _ _ _ tl' more' g1 g2 =>
      have := g1.unique h1
      subst this
      rw [List.map_append, List.map_append, ih g2]
      congr 1
      have e1 := placed_shift tl' 0 n
      have e2 := placed_shift tl' 0 m
      rw [Nat.zero_add] at e1 e2
      rw [e1, e2]
      simp [List.map_map, Function.comp_def]

/-- C105: commenting lines out gives the tokens of the text without them. -/
theorem commenting_out_is_removing (above sel sel' below : List Text) (hs : AllCommentedOut sel sel')
    (hn : ∀ l, l ∈ sel → '\n' ∉ l) (ts tr : List (Kind × Text)) (h : Lexes (joinLines (above ++ (sel' ++ below))) ts)
    (hr : Lexes (joinLines (above ++ below)) tr) :
    (placed 0 ts).map (·.2) = (placed 0 tr).map (·.2) := by
  have hl := (lexes_iff_lines (above ++ below)).1 ⟨tr, hr⟩
  obtain ⟨ts2, A, B, h2, e, hA, hB⟩ := commented_lines_are_invisible above sel sel' below hs hn
    (fun l hl' => hl l (List.mem_append_left _ hl')) (fun l hl' => hl l (List.mem_append_right _ hl'))
  have := h.unique h2
  subst this
  obtain ⟨A', B', e', hA', hB'⟩ := lineTokens_append (tokens_line_by_line _ tr hr 0)
  rw [e, e', List.map_append, List.map_append, lineTokens_same hA hA', lineTokens_same hB hB']

theorem findToken_block (s : Text) : findToken ('/' :: '*' :: s) = some (.SLASH, 1) := by
  unfold findToken
  simp only
  rw [if_neg (by decide), if_neg (by simp [startsWith]), if_neg (by decide), if_neg (by decide)]
  rfl

theorem findToken_star (s : Text) : findToken ('*' :: s) = some (.STAR, 1) := by
  unfold findToken
  simp only
  rw [if_neg (by decide), if_neg (by simp), if_neg (by decide), if_neg (by decide)]
  rfl

/-- **C105 does not hold** for block comments: wherever one begins, the server sees the tokens `/` and `*` and all that
follows. -/
theorem block_comment_is_seen (before selected after : Text) (tb ts : List (Kind × Text))
    (hb : Steps (blockCommented before selected after) tb (blockCommented [] selected after))
    (h : Lexes (blockCommented before selected after) ts) :
    ∃ more, ts = tb ++ (.SLASH, ['/']) :: (.STAR, ['*']) :: more ∧ Lexes (selected ++ (blockComment.2 ++ after)) more := by
  obtain ⟨ys, e, hy⟩ := hb.lexes_rest h
  have s1 : Steps (blockCommented [] selected after) [(.SLASH, ['/']), (.STAR, ['*'])] (selected ++ (blockComment.2 ++ after)) :=
    .cons (u := ['/']) (by simp) (findToken_block _) (.cons (u := ['*']) (by simp) (findToken_star _) (.nil _))
  obtain ⟨zs, e2, hz⟩ := s1.lexes_rest hy
  exact ⟨zs, by rw [e, e2]; rfl, hz⟩

theorem panics_of_not_ok {text : Text} (h : ∀ kind tree errors, parse text ≠ .ok kind tree errors) :
    ∃ w, parse text = .panic w := by
  rcases parseWithDepth_cases text _ (Nat.le_refl _) with ⟨w, h1, _⟩ | ⟨_, _, t, e, _, _, _, _, h1, _⟩
  · exact ⟨w, h1⟩
  · exact absurd h1 (h _ _ _)

/-- **C105 does not hold** for block comments: a file that begins with one makes the parser panic, whatever stands in
the comment and behind it. -/
theorem leading_block_comment_panics (blanks selected after : Text) (hw : Trivia blanks) :
    ∃ w, parse (blockCommented blanks selected after) = .panic w := by
  apply panics_of_not_ok
  intro kind tree errors hp
  obtain ⟨_, ts, hl, _⟩ := parse_ok hp
  have hl2 : ∃ t2, Lexes (blockCommented [] selected after) t2 := lexes_of_trivia hw hl
  obtain ⟨t2, h2⟩ := hl2
  obtain ⟨ts', h3, h4⟩ := lexes_trivia hw h2
  have := hl.unique h3
  subst this
  obtain ⟨more, e, _⟩ := block_comment_is_seen [] selected after [] t2 (.nil _) h2
  have hs : (significant ts).head? = some (.SLASH, ['/']) := by
    rw [h4, e]; rfl
  rw [parse_stray_token hl hs (by decide)] at hp
  cases hp

set_option linter.constructorNameAsVariable false in
/-- **C105 does not hold** for block comments: so does one behind valid definitions. -/
theorem block_comment_behind_definitions_panics (before selected after : Text) (tv tt : List (Kind × Text)) (shapes : List Shape)
    (ht : Lexes (blockCommented [] selected after) tt) (hv : Lexes (blockCommented before selected after) (tv ++ tt))
    (hd : Derives [.nt .file] (significant tv) shapes) (hs : Spaced tv) (hl : tv.getLast?.map (·.1) = some Kind.R_BRACE) :
    parse (blockCommented before selected after) = .panic .stuck := by
  obtain ⟨more, e, _⟩ := block_comment_is_seen [] selected after [] tt (.nil _) ht
  have hstuck : parse (blockCommented [] selected after) = .panic .stuck :=
    parse_stray_token ht (k := .SLASH) (u := ['/']) (by rw [e]; rfl) (by decide)
  have hf : ∀ x ∈ tt.head?, x.1.isTrivia = false := by
    rw [e]
    intro x hx
    simp only [List.nil_append, List.head?_cons, Option.mem_def, Option.some.injEq] at hx
    subst hx
    decide
  have hb : blockCommented before selected after = before ++ blockCommented [] selected after := by
    unfold blockCommented; rw [List.nil_append]
  rw [hb] at hv ⊢
  rcases parse_behind_valid_token ht hf hv hd hs hl with h | h
  · exact h
  · rw [hstuck] at h
    simp only [Continues] at h
    exact h

/-- Inside a function the block comment is reported as an error. -/
theorem block_comment_in_function : ∃ kind tree e errors,
    parse (blockCommented "module M { fun f() { ".toList " c ".toList " } }".toList) = .ok kind tree (e :: errors) := by
  have : (match parse (blockCommented "module M { fun f() { ".toList " c ".toList " } }".toList) with
    | .ok _ _ (_ :: _) => true
    | _ => false) = true := by decide +kernel
  split at this
  · rename_i k t e es h
    exact ⟨k, t, e, es, h⟩
  · cases this

/-- Witness: a line with a character no token begins with is commented out, a blank line is left alone. -/
example : ∃ ts A B, Lexes (joinLines (["module M".toList] ++ ([" // $ {".toList, " ".toList] ++ ["{}".toList]))) ts ∧
    placed 0 ts = A ++ B ∧ LineTokens 0 ["module M".toList] A ∧ LineTokens (lengthOf ["module M".toList] + lengthOf [" // $ {".toList, " ".toList]) ["{}".toList] B := by
  have := commented_lines_are_invisible ["module M".toList] [" $ {".toList, " ".toList] [" // $ {".toList, " ".toList] ["{}".toList]
    (.cons (.spaced (indent := [' ']) (rest := "$ {".toList) (by simp [Space]))
      (.cons (.blank (by simp [Space])) .nil)) (by decide)
    (by simp only [List.mem_cons, List.not_mem_nil, or_false, forall_eq]; exact ⟨_, lexes_module⟩)
    (by
      simp only [List.mem_cons, List.not_mem_nil, or_false, forall_eq]
      exact ⟨[(.L_BRACE, "{".toList), (.R_BRACE, "}".toList)],
        .cons (u := "{".toList) (r := "}".toList) (by decide) (by decide +kernel)
          (.cons (u := "}".toList) (r := []) (by decide) (by decide +kernel) (.nil _))⟩)
  exact this

/-- Witness for the block comment behind a definition. -/
example : parse (blockCommented "module M{}".toList " c ".toList " ".toList) = .panic .stuck := by
  obtain ⟨shapes, hd⟩ := modules_derive 1
  exact block_comment_behind_definitions_panics "module M{}".toList " c ".toList " ".toList (moduleTokens 1)
    [(.SLASH, "/".toList), (.STAR, "*".toList), (.WHITESPACE, " ".toList), (.IDENT, "c".toList), (.WHITESPACE, " ".toList),
      (.STAR, "*".toList), (.SLASH, "/".toList), (.WHITESPACE, " ".toList)] shapes
    (lexes_of_check (by decide +kernel)) (lexes_of_check (by decide +kernel)) hd (modules_spaced 1) (by decide +kernel)

end Verif.Editor.Comments
