import Verif.Parser.Blind

set_option autoImplicit false

/-!
C58: where whitespace and comments can be inserted, changed and removed.  The specification says
it in terms of the significant tokens and the gaps between them.
-/

namespace Verif.Parser

open Lexer Kind

namespace Layout

/-- A significant token and the whitespace and comments behind it. -/
structure Laid where
  tok : Kind × Text
  gap : List (Kind × Text)

/-- All tokens, in their order. -/
def flat (ps : List Laid) : List (Kind × Text) := ps.flatMap fun p => p.tok :: p.gap

/-- `ts` consists of the trivia `lead`, and the tokens of `ps` with the trivia behind each. -/
structure LaidOut (ts : List (Kind × Text)) (lead : List (Kind × Text)) (ps : List Laid) : Prop where
  tokens : ts = lead ++ flat ps
  lead : ∀ t ∈ lead, t.1.isTrivia = true
  toks : ∀ p ∈ ps, p.tok.1.isTrivia = false
  gaps : ∀ p ∈ ps, ∀ t ∈ p.gap, t.1.isTrivia = true

/-- The kind of the first token of `ps`. -/
def next : List Laid → Option Kind
  | [] => none
  | p :: _ => some p.tok.1

/-- A comment in the gap behind a token of kind `k` makes a difference, if the token before it is
of kind `prev` and the token behind the gap is of kind `nx`: the gap is the one in `name {`,
`name :`, `1 :` or in `module A ::`. -/
def Delicate (prev : Option Kind) (k : Kind) (nx : Option Kind) : Prop :=
  (k = IDENT ∧ nx = some L_BRACE) ∨
  ((k = IDENT ∨ k = INTEGER_NUMBER) ∧ nx = some COLON) ∨
  (prev = some MODULE_KW ∧ nx = some COLON_COLON)

def HasComment (gap : List (Kind × Text)) : Prop := ∃ t ∈ gap, t.1 = COMMENT

/-- A `*` or `{` closes a path if it is the second token behind `::`, whitespace and comments
included: `gap` is the gap behind `::` and `r` is what follows. -/
def ClosesPath (gap : List (Kind × Text)) (r : List Laid) : Prop :=
  (gap = [] ∧ ∃ x y r', r = x :: y :: r' ∧ x.gap = [] ∧ (y.tok.1 = STAR ∨ y.tok.1 = L_BRACE)) ∨
  (gap.length = 1 ∧ ∃ x r', r = x :: r' ∧ (x.tok.1 = STAR ∨ x.tok.1 = L_BRACE))

/-- The same tokens with other gaps.  The gaps are arbitrary, except that in the delicate ones
there has to be a comment or not as before, and that the gaps behind `::` do not change whether
the next token but one is a `*` or `{`. -/
inductive Reformatted : Option Kind → List Laid → List Laid → Prop where
  | nil {prev : Option Kind} : Reformatted prev [] []
  | cons {prev : Option Kind} {t : Kind × Text} {g g' : List (Kind × Text)} {r r' : List Laid} :
      (Delicate prev t.1 (next r) → (HasComment g ↔ HasComment g')) →
      (t.1 = COLON_COLON → (ClosesPath g r ↔ ClosesPath g' r')) →
      Reformatted (some t.1) r r' → Reformatted prev (⟨t, g⟩ :: r) (⟨t, g'⟩ :: r')

end Layout

open Layout

/-! What the parser sees of the gaps. -/

theorem headKind_flat (ps : List Laid) : headKind (flat ps) = (next ps).getD EOF := by
  cases ps <;> rfl

theorem trivia_cases {k : Kind} (h : k.isTrivia = true) : k = WHITESPACE ∨ k = COMMENT := by
  cases k <;> first | (left; rfl) | (right; rfl) | cases h

theorem la1_flat {g : List (Kind × Text)} {ps : List Laid} (hg : ∀ t ∈ g, t.1.isTrivia = true)
    (ht : ∀ p ∈ ps, p.tok.1.isTrivia = false) :
    (HasComment g → headKind ((g ++ flat ps).dropWhile (·.1 == WHITESPACE)) = COMMENT) ∧
    (¬HasComment g → headKind ((g ++ flat ps).dropWhile (·.1 == WHITESPACE)) = (next ps).getD EOF) := by
  induction g with
  | nil =>
    refine ⟨fun ⟨t, h, _⟩ => (by cases h), fun _ => ?_⟩
    cases ps with
    | nil => rfl
    | cons p ps =>
      have hp := ht p List.mem_cons_self
      have : (p.tok.1 == WHITESPACE) = false := by
        rw [beq_eq_false_iff_ne]
        intro h
        rw [h] at hp
        cases hp
      simp only [flat, List.flatMap_cons, List.nil_append, List.cons_append, List.dropWhile_cons, this]
      rfl
  | cons t g ih =>
    have ih := ih fun x hx => hg x (List.mem_cons_of_mem _ hx)
    have key : HasComment (t :: g) ↔ t.1 = COMMENT ∨ HasComment g := by
      simp only [HasComment, List.mem_cons, exists_eq_or_imp]
    rw [key]
    rcases trivia_cases (hg t List.mem_cons_self) with h | h
    · simp only [List.cons_append, List.dropWhile_cons, h, beq_self_eq_true, if_true]
      refine ⟨fun hc => ih.1 (hc.resolve_left fun h => by cases h), fun hn => ih.2 fun hc => hn (.inr hc)⟩
    · have : (t.1 == WHITESPACE) = false := by rw [h]; rfl
      simp only [List.cons_append, List.dropWhile_cons, this]
      exact ⟨fun _ => h, fun hn => absurd (.inl h) hn⟩

theorem la1_iff {g : List (Kind × Text)} {ps : List Laid} (hg : ∀ t ∈ g, t.1.isTrivia = true)
    (ht : ∀ p ∈ ps, p.tok.1.isTrivia = false) {k : Kind} (hk : k ≠ COMMENT) (hk' : k ≠ EOF) :
    headKind ((g ++ flat ps).dropWhile (·.1 == WHITESPACE)) = k ↔ ¬HasComment g ∧ next ps = some k := by
  have h := la1_flat hg ht
  by_cases hc : HasComment g
  · rw [h.1 hc]
    exact ⟨fun e => absurd e.symm hk, fun e => absurd hc e.1⟩
  · rw [h.2 hc]
    cases next ps with
    | none => exact ⟨fun e => absurd e.symm hk', fun e => by cases e.2⟩
    | some x => exact ⟨fun e => ⟨hc, by rw [← e]; rfl⟩, fun e => by cases e.2; rfl⟩

theorem la2_iff {g : List (Kind × Text)} {ps : List Laid} (hg : ∀ t ∈ g, t.1.isTrivia = true)
    (ht : ∀ p ∈ ps, ∀ t ∈ p.gap, t.1.isTrivia = true) :
    (headKind ((g ++ flat ps).drop 1) = STAR ∨ headKind ((g ++ flat ps).drop 1) = L_BRACE) ↔ ClosesPath g ps := by
  have nt : ∀ {k : Kind}, k.isTrivia = true → ¬(k = STAR ∨ k = L_BRACE) := by
    intro k h e
    rcases e with rfl | rfl <;> cases h
  cases g with
  | nil =>
    cases ps with
    | nil =>
      refine ⟨fun h => (by rcases h with h | h <;> cases h), fun h => ?_⟩
      rcases h with ⟨_, _, _, _, h, _⟩ | ⟨h, _⟩ <;> cases h
    | cons x ps =>
      have e : ([] ++ flat (x :: ps)).drop 1 = x.gap ++ flat ps := rfl
      rw [e]
      cases hx : x.gap with
      | nil =>
        rw [List.nil_append, headKind_flat]
        cases ps with
        | nil =>
          refine ⟨fun h => (by rcases h with h | h <;> cases h), fun h => ?_⟩
          rcases h with ⟨_, _, _, _, h, _⟩ | ⟨h, _⟩ <;> cases h
        | cons y ps =>
          refine ⟨fun h => .inl ⟨rfl, x, y, ps, rfl, hx, h⟩, fun h => ?_⟩
          rcases h with ⟨_, _, _, _, h, _, h'⟩ | ⟨h, _⟩
          · cases h; exact h'
          · cases h
      | cons a gap =>
        refine ⟨fun h => absurd h (nt (ht x List.mem_cons_self a (by rw [hx]; exact List.mem_cons_self))), fun h => ?_⟩
        rcases h with ⟨_, _, _, _, h, h', _⟩ | ⟨h, _⟩
        · cases h; rw [hx] at h'; cases h'
        · cases h
  | cons a g =>
    have e : ((a :: g) ++ flat ps).drop 1 = g ++ flat ps := rfl
    rw [e]
    cases g with
    | nil =>
      rw [List.nil_append, headKind_flat]
      cases ps with
      | nil =>
        refine ⟨fun h => (by rcases h with h | h <;> cases h), fun h => ?_⟩
        rcases h with ⟨h, _⟩ | ⟨_, _, _, h, _⟩ <;> cases h
      | cons y ps =>
        refine ⟨fun h => .inr ⟨rfl, y, ps, rfl, h⟩, fun h => ?_⟩
        rcases h with ⟨h, _⟩ | ⟨_, _, _, h, h'⟩
        · cases h
        · cases h; exact h'
    | cons b g =>
      refine ⟨fun h => absurd h (nt (hg b (by simp))), fun h => ?_⟩
      rcases h with ⟨h, _⟩ | ⟨h, _⟩
      · cases h
      · simp at h

theorem annotSig_gap {g ts : List (Kind × Text)} (hg : ∀ t ∈ g, t.1.isTrivia = true) :
    annotSig (g ++ ts) = annotSig ts := by
  induction g with
  | nil => rfl
  | cons t g ih =>
    rw [List.cons_append, annotSig, if_pos (hg t List.mem_cons_self)]
    exact ih fun x hx => hg x (List.mem_cons_of_mem _ hx)

theorem annotSig_flat {p : Laid} {ps : List Laid} (ht : p.tok.1.isTrivia = false) (hg : ∀ t ∈ p.gap, t.1.isTrivia = true) :
    annotSig (flat (p :: ps)) = Tok.of p.tok (p.gap ++ flat ps) :: annotSig (flat ps) := by
  show annotSig (p.tok :: (p.gap ++ flat ps)) = _
  rw [annotSig, if_neg (by rw [ht]; exact Bool.false_ne_true), annotSig_gap hg]

theorem Layout.Reformatted.next {prev : Option Kind} {ps ps' : List Laid} (h : Reformatted prev ps ps') :
    Layout.next ps = Layout.next ps' := by
  cases h <;> rfl

/-- What the grammar sees is the same. -/
theorem reformatted_alike {prev : Option Kind} {ps ps' : List Laid} (h : Reformatted prev ps ps')
    (ht : ∀ p ∈ ps, p.tok.1.isTrivia = false) (hg : ∀ p ∈ ps, ∀ t ∈ p.gap, t.1.isTrivia = true)
    (ht' : ∀ p ∈ ps', p.tok.1.isTrivia = false) (hg' : ∀ p ∈ ps', ∀ t ∈ p.gap, t.1.isTrivia = true) :
    ToksAlike (annotSig (flat ps)) (annotSig (flat ps')) ∧
    (prev = some MODULE_KW →
      (kind1 (annotSig (flat ps)) = COLON_COLON ↔ kind1 (annotSig (flat ps')) = COLON_COLON)) := by
  induction h with
  | nil => exact ⟨.nil, fun _ => Iff.rfl⟩
  | cons hc hp h ih =>
    rename_i prev t g g' r r'
    have sub : ∀ {P : Laid → Prop} {x : Laid} {l : List Laid}, (∀ p ∈ x :: l, P p) → ∀ p ∈ l, P p :=
      fun h p hp => h p (List.mem_cons_of_mem _ hp)
    have ih := ih (sub ht) (sub hg) (sub ht') (sub hg')
    have g1 := hg _ List.mem_cons_self
    have g2 := hg' _ List.mem_cons_self
    rw [annotSig_flat (ht _ List.mem_cons_self) g1, annotSig_flat (ht' _ List.mem_cons_self) g2]
    have la : ∀ k, k ≠ COMMENT → k ≠ EOF → (Layout.next r = some k → Delicate prev t.1 (Layout.next r)) →
        ((Tok.of t (g ++ flat r)).la1 = k ↔ (Tok.of t (g' ++ flat r')).la1 = k) := by
      intro k h1 h2 hd
      show headKind _ = k ↔ headKind _ = k
      rw [la1_iff g1 (sub ht) h1 h2, la1_iff g2 (sub ht') h1 h2, ← h.next]
      constructor
      · rintro ⟨a, b⟩; exact ⟨fun x => a ((hc (hd b)).2 x), b⟩
      · rintro ⟨a, b⟩; exact ⟨fun x => a ((hc (hd b)).1 x), b⟩
    refine ⟨.cons ⟨rfl, fun _ => rfl, ?_, ?_, ?_⟩ ?_ ih.1, ?_⟩
    · intro hk
      exact la _ (by decide) (by decide) fun hn => by rw [hn]; exact .inl ⟨hk, rfl⟩
    · intro hk
      exact la _ (by decide) (by decide) fun hn => by rw [hn]; exact .inr (.inl ⟨hk, rfl⟩)
    · intro hk
      show (headKind _ = STAR ∨ headKind _ = L_BRACE) ↔ (headKind _ = STAR ∨ headKind _ = L_BRACE)
      rw [la2_iff g1 (sub hg), la2_iff g2 (sub hg')]
      exact hp hk
    · intro hk
      exact ih.2 (congrArg some hk)
    · intro hk
      exact la _ (by decide) (by decide) fun hn => by rw [hn]; exact .inr (.inr ⟨hk, rfl⟩)

theorem run_root_alike {ts ts' : List Tok} (h : ToksAlike ts ts') (n : Nat) :
    OutAlike (run tokenLevel (callN tokenLevel body n) root ⟨ts, 0, 0, .nil, []⟩)
      (run tokenLevel (callN tokenLevel body n) root ⟨ts', 0, 0, .nil, []⟩) :=
  blind_root _ (alike_callN n) _ _ ⟨h, rfl, rfl, rfl, rfl⟩ trivial

/-- The grammar makes the same calls on both texts. -/
theorem reformatted_run {ts ts' lead lead' : List (Kind × Text)} {ps ps' : List Laid}
    (hl : LaidOut ts lead ps) (hl' : LaidOut ts' lead' ps')
    (hlead : lead.head?.map (·.1) = lead'.head?.map (·.1)) (hr : Reformatted none ps ps') (n : Nat) :
    OutAlike (run tokenLevel (callN tokenLevel body n) root ⟨annot ts, 0, 0, .nil, []⟩)
      (run tokenLevel (callN tokenLevel body n) root ⟨annot ts', 0, 0, .nil, []⟩) := by
  have al := (reformatted_alike hr hl.toks hl.gaps hl'.toks hl'.gaps).1
  rw [hl.tokens, hl'.tokens]
  cases lead with
  | nil =>
    cases lead' with
    | cons _ _ => cases hlead
    | nil =>
      have e : ∀ {q : List Laid}, (∀ p ∈ q, p.tok.1.isTrivia = false) → annot ([] ++ flat q) = annotSig (flat q) := by
        intro q hq
        cases q with
        | nil => rfl
        | cons p q =>
          show Tok.of _ _ :: annotSig _ = annotSig (p.tok :: (p.gap ++ flat q))
          rw [annotSig, if_neg (by rw [hq p List.mem_cons_self]; exact Bool.false_ne_true)]
          rfl
      rw [e hl.toks, e hl'.toks]
      exact run_root_alike al _
  | cons a l =>
    cases lead' with
    | nil => cases hlead
    | cons a' l' =>
      obtain ⟨k, t⟩ := a
      obtain ⟨k', t'⟩ := a'
      simp only [List.head?_cons, Option.map_some, Option.some.injEq] at hlead
      subst hlead
      have sub : ∀ {x : Kind × Text} {l : List (Kind × Text)}, (∀ p ∈ x :: l, p.1.isTrivia = true) →
          ∀ p ∈ l, p.1.isTrivia = true := fun h p hp => h p (List.mem_cons_of_mem _ hp)
      simp only [List.cons_append, annot, annotSig_gap (sub hl.lead), annotSig_gap (sub hl'.lead), Tok.of]
      have hk : k.isTrivia = true := hl.lead _ List.mem_cons_self
      rw [run_root_trivia _ hk t [] _ _ k k, run_root_trivia _ hk t' [] _ _ k k]
      refine run_root_alike (.cons ⟨rfl, fun _ => rfl, fun _ => Iff.rfl, fun _ => Iff.rfl, fun _ => Iff.rfl⟩ ?_ al) _
      intro hm
      have hm : k = MODULE_KW := hm
      rw [hm] at hk
      cases hk

/-- **C58, partial.**  Whitespace and comments can be inserted, changed and removed between any two
tokens, with two exceptions, without changing the syntax tree, up to whitespace and comments, or
the error messages, whether the text is a valid program or not; a text that makes the parser panic
still does.  The exceptions are those in `Reformatted`, and that the text has to begin as before:
with whitespace, with a comment or with a token.  The exceptions are necessary, see below. -/
theorem parse_reformatted_partial {text text' : Text} {ts ts' lead lead' : List (Kind × Text)} {ps ps' : List Laid}
    (h : Lexes text ts) (h' : Lexes text' ts') (hl : LaidOut ts lead ps) (hl' : LaidOut ts' lead' ps')
    (hlead : lead.head?.map (·.1) = lead'.head?.map (·.1)) (hr : Reformatted none ps ps') :
    SameOutcome (parse text) (parse text') := by
  have f1 := parse_follows h (n := maxDepth text + maxDepth text') (Nat.le_add_right _ _)
  have f2 := parse_follows h' (n := maxDepth text + maxDepth text') (Nat.le_add_left _ _)
  have key := reformatted_run hl hl' hlead hr (maxDepth text + maxDepth text')
  generalize run tokenLevel (callN tokenLevel body (maxDepth text + maxDepth text')) root
    ⟨annot ts, 0, 0, .nil, []⟩ = o at f1 key
  generalize run tokenLevel (callN tokenLevel body (maxDepth text + maxDepth text')) root
    ⟨annot ts', 0, 0, .nil, []⟩ = o' at f2 key
  cases o with
  | ok a s =>
    cases o' with
    | ok a' s' =>
      obtain ⟨kids, tree, errors, e1, e2, e3, e4⟩ := f1
      obtain ⟨kids', tree', errors', e1', e2', e3', e4'⟩ := f2
      rw [key.2.items, e1'] at e1
      cases e1
      rw [e2, e2']
      exact ⟨tree', errors', rfl, e3'.trans e3.symm, e4'.trans e4.symm⟩
    | panic w => exact absurd key id
    | outOfFuel => exact absurd key id
  | panic w =>
    cases o' with
    | ok a' s' => exact absurd key id
    | panic w' =>
      have f1 : parse text = .panic w := f1
      have f2 : parse text' = .panic w' := f2
      have key : w = w' := key
      rw [f1, f2, key]
      rfl
    | outOfFuel => exact absurd key id
  | outOfFuel => exact absurd f1 id

/-- Every list of tokens is laid out in one way. -/
theorem laidOut_exists (ts : List (Kind × Text)) : ∃ lead ps, LaidOut ts lead ps := by
  induction ts with
  | nil => exact ⟨[], [], rfl, by simp, by simp, by simp⟩
  | cons t ts ih =>
    obtain ⟨lead, ps, e, h1, h2, h3⟩ := ih
    by_cases ht : t.1.isTrivia = true
    · refine ⟨t :: lead, ps, by rw [e]; rfl, ?_, h2, h3⟩
      intro x hx
      rcases List.mem_cons.1 hx with rfl | hx
      · exact ht
      · exact h1 x hx
    · refine ⟨[], ⟨t, lead⟩ :: ps, by rw [e]; rfl, by simp, ?_, ?_⟩
      · intro p hp
        rcases List.mem_cons.1 hp with rfl | hp
        · simpa using ht
        · exact h2 p hp
      · intro p hp
        rcases List.mem_cons.1 hp with rfl | hp
        · exact h1
        · exact h3 p hp

/-- Checks a layout. -/
theorem laidOut_of_check {ts lead : List (Kind × Text)} {ps : List Laid}
    (h : (ts == lead ++ flat ps && lead.all (·.1.isTrivia) && ps.all fun p => !p.tok.1.isTrivia && p.gap.all (·.1.isTrivia))
      = true) : LaidOut ts lead ps := by
  simp only [Bool.and_eq_true, beq_iff_eq, List.all_eq_true, Bool.not_eq_true'] at h
  exact ⟨h.1.1, h.1.2, fun p hp => (h.2 p hp).1, fun p hp => (h.2 p hp).2⟩

/-- Witness of `parse_reformatted_partial`: whitespace and comments appear, disappear and move. -/
example : ∃ (ts ts' lead lead' : List (Kind × Text)) (ps ps' : List Laid),
    Lexes "module M{fun f()// c\n{a::b(x+1);}}".toList ts ∧
    Lexes "module\nM {\n  // doc\n fun// name\nf ( ) {\na :: b// call\n(x // left\n+ 1) ;}}\n".toList ts' ∧
    LaidOut ts lead ps ∧ LaidOut ts' lead' ps' ∧ lead.head?.map (·.1) = lead'.head?.map (·.1) ∧ Reformatted none ps ps' := by
  refine ⟨[(MODULE_KW, "module".toList), (WHITESPACE, " ".toList), (IDENT, "M".toList), (L_BRACE, "{".toList),
      (FUN_KW, "fun".toList), (WHITESPACE, " ".toList), (IDENT, "f".toList), (L_PAREN, "(".toList),
      (R_PAREN, ")".toList), (COMMENT, "// c\n".toList), (L_BRACE, "{".toList), (IDENT, "a".toList),
      (COLON_COLON, "::".toList), (IDENT, "b".toList), (L_PAREN, "(".toList), (IDENT, "x".toList),
      (PLUS, "+".toList), (INTEGER_NUMBER, "1".toList), (R_PAREN, ")".toList), (SEMICOLON, ";".toList),
      (R_BRACE, "}".toList), (R_BRACE, "}".toList)],
    [(MODULE_KW, "module".toList), (WHITESPACE, "\n".toList), (IDENT, "M".toList), (WHITESPACE, " ".toList),
      (L_BRACE, "{".toList), (WHITESPACE, "\n  ".toList), (COMMENT, "// doc\n".toList), (WHITESPACE, " ".toList),
      (FUN_KW, "fun".toList), (COMMENT, "// name\n".toList), (IDENT, "f".toList), (WHITESPACE, " ".toList),
      (L_PAREN, "(".toList), (WHITESPACE, " ".toList), (R_PAREN, ")".toList), (WHITESPACE, " ".toList),
      (L_BRACE, "{".toList), (WHITESPACE, "\n".toList), (IDENT, "a".toList), (WHITESPACE, " ".toList),
      (COLON_COLON, "::".toList), (WHITESPACE, " ".toList), (IDENT, "b".toList), (COMMENT, "// call\n".toList),
      (L_PAREN, "(".toList), (IDENT, "x".toList), (WHITESPACE, " ".toList), (COMMENT, "// left\n".toList),
      (PLUS, "+".toList), (WHITESPACE, " ".toList), (INTEGER_NUMBER, "1".toList), (R_PAREN, ")".toList),
      (WHITESPACE, " ".toList), (SEMICOLON, ";".toList), (R_BRACE, "}".toList), (R_BRACE, "}".toList),
      (WHITESPACE, "\n".toList)], [], [],
    [⟨(MODULE_KW, "module".toList), [(WHITESPACE, " ".toList)]⟩, ⟨(IDENT, "M".toList), []⟩,
      ⟨(L_BRACE, "{".toList), []⟩, ⟨(FUN_KW, "fun".toList), [(WHITESPACE, " ".toList)]⟩, ⟨(IDENT, "f".toList), []⟩,
      ⟨(L_PAREN, "(".toList), []⟩, ⟨(R_PAREN, ")".toList), [(COMMENT, "// c\n".toList)]⟩, ⟨(L_BRACE, "{".toList), []⟩,
      ⟨(IDENT, "a".toList), []⟩, ⟨(COLON_COLON, "::".toList), []⟩, ⟨(IDENT, "b".toList), []⟩,
      ⟨(L_PAREN, "(".toList), []⟩, ⟨(IDENT, "x".toList), []⟩, ⟨(PLUS, "+".toList), []⟩, ⟨(INTEGER_NUMBER, "1".toList), []⟩,
      ⟨(R_PAREN, ")".toList), []⟩, ⟨(SEMICOLON, ";".toList), []⟩, ⟨(R_BRACE, "}".toList), []⟩,
      ⟨(R_BRACE, "}".toList), []⟩],
    [⟨(MODULE_KW, "module".toList), [(WHITESPACE, "\n".toList)]⟩, ⟨(IDENT, "M".toList), [(WHITESPACE, " ".toList)]⟩,
      ⟨(L_BRACE, "{".toList), [(WHITESPACE, "\n  ".toList), (COMMENT, "// doc\n".toList), (WHITESPACE, " ".toList)]⟩,
      ⟨(FUN_KW, "fun".toList), [(COMMENT, "// name\n".toList)]⟩, ⟨(IDENT, "f".toList), [(WHITESPACE, " ".toList)]⟩,
      ⟨(L_PAREN, "(".toList), [(WHITESPACE, " ".toList)]⟩, ⟨(R_PAREN, ")".toList), [(WHITESPACE, " ".toList)]⟩,
      ⟨(L_BRACE, "{".toList), [(WHITESPACE, "\n".toList)]⟩, ⟨(IDENT, "a".toList), [(WHITESPACE, " ".toList)]⟩,
      ⟨(COLON_COLON, "::".toList), [(WHITESPACE, " ".toList)]⟩, ⟨(IDENT, "b".toList), [(COMMENT, "// call\n".toList)]⟩,
      ⟨(L_PAREN, "(".toList), []⟩, ⟨(IDENT, "x".toList), [(WHITESPACE, " ".toList), (COMMENT, "// left\n".toList)]⟩,
      ⟨(PLUS, "+".toList), [(WHITESPACE, " ".toList)]⟩, ⟨(INTEGER_NUMBER, "1".toList), []⟩,
      ⟨(R_PAREN, ")".toList), [(WHITESPACE, " ".toList)]⟩, ⟨(SEMICOLON, ";".toList), []⟩, ⟨(R_BRACE, "}".toList), []⟩,
      ⟨(R_BRACE, "}".toList), [(WHITESPACE, "\n".toList)]⟩],
    lexes_of_check (by decide +kernel), lexes_of_check (by decide +kernel), laidOut_of_check (by decide +kernel),
    laidOut_of_check (by decide +kernel), rfl, ?_⟩
  repeat' (first | exact .nil | refine .cons (by simp [Delicate, HasComment, Layout.next]) (by simp [ClosesPath]) ?_)

/-! Each of the exceptions is necessary. -/

/-- A comment before the `{` of a pattern. -/
theorem comment_before_brace :
    errorsOf "script { fun f() { let S {x: z} = y; } }".toList = some [] ∧
    errorsOf "script { fun f() { let S //\n {x: z} = y; } }".toList ≠ some [] := by
  constructor <;> decide +kernel

/-- A comment before the `:` of a field, in a pattern and in an expression. -/
theorem comment_before_colon :
    errorsOf "script { fun f() { let S {a: b} = y; } }".toList = some [] ∧
    errorsOf "script { fun f() { let S {a//\n: b} = y; } }".toList ≠ some [] ∧
    errorsOf "script { fun f() { S {a: b}; } }".toList = some [] ∧
    errorsOf "script { fun f() { S {a//\n: b}; } }".toList ≠ some [] := by
  refine ⟨?_, ?_, ?_, ?_⟩ <;> decide +kernel

end Verif.Parser
