import Verif.Parser.LostBodies
import Verif.Parser.Props
import Verif.Parser.Samples

set_option autoImplicit false

/-!
C34: the texts for which the parser returns a tree.
-/

namespace Verif.Parser

open Kind Lexer

/-! ### A loop that is called at a token that it does not get past never returns -/

theorem Runs.det {α : Type} {p : Prog α} {s s1 s2 : TState} {a b : α} (h : Runs p s a s1) (h' : Runs p s b s2) :
    a = b ∧ s1 = s2 := by
  obtain ⟨N, hN⟩ := h.run
  obtain ⟨M, hM⟩ := h'.run
  have h1 := hN (N + M) (by omega)
  rw [hM (N + M) (by omega)] at h1
  cases h1
  exact ⟨rfl, rfl⟩

/-- A run that is finished with depth `n` has finished the calls in it with at most this depth. -/
theorem calls_finish {α : Type} {p : Prog α} {s t : TState} {f : Fn} (h : Calls p s f t) :
    ∀ n a s', run tokenFree (callN tokenFree body n) p s = .ok a s' →
      ∃ m r t', m ≤ n ∧ callN tokenFree body m f t = .ok r t' := by
  induction h with
  | @here α p s s1 f k h =>
    intro n a s' hr
    rw [run_exec, h] at hr
    simp only at hr
    cases hc : callN tokenFree body n f s1 with
    | ok r s2 => exact ⟨n, r, s2, Nat.le_refl _, hc⟩
    | panic w => rw [hc] at hr; cases hr
    | outOfFuel => rw [hc] at hr; cases hr
  | @inside α p s s1 t f g k h _ ih =>
    intro n a s' hr
    rw [run_exec, h] at hr
    simp only at hr
    cases hc : callN tokenFree body n f s1 with
    | ok r s2 =>
      cases n with
      | zero => cases hc
      | succ n =>
        obtain ⟨m, r', t', hm, h1⟩ := ih n r s2 hc
        exact ⟨m, r', t', by omega, h1⟩
    | panic w => rw [hc] at hr; cases hr
    | outOfFuel => rw [hc] at hr; cases hr
  | @after α p s s1 s2 t f g r k h h2 _ ih =>
    intro n a s' hr
    rw [run_exec, h] at hr
    simp only at hr
    cases hc : callN tokenFree body n f s1 with
    | ok r' s2' =>
      obtain ⟨rfl, rfl⟩ := h2.det (callN_free_runs n f s1 r' s2' hc)
      rw [hc] at hr
      exact ih n a s' hr
    | panic w => rw [hc] at hr; cases hr
    | outOfFuel => rw [hc] at hr; cases hr

theorem wp_error {α : Type} {Q : α → TState → Prop} {w : List Tok} {u n : Nat} {i : Forest} {o : List (Forest × Forest)} (msg : String) (f : Unit → Prog α) :
    WP (error msg >>= f) ⟨w, u, n, i, o⟩ Q = WP (f ()) ⟨w, u, n + 1, .err i msg, o⟩ Q :=
  WP.of_exec rfl

/-- An expression at `)` or `;` consumes nothing. -/
theorem expr_idle {k : Kind} (hk : k = R_PAREN ∨ k = SEMICOLON) (t : Text) (l1 l2 : Kind) (w : List Tok) (u n : Nat)
    (i : Forest) (o : List (Forest × Forest)) :
    ∃ q u' n' i', Runs (body (.exprBp 1)) ⟨⟨k, t, l1, l2⟩ :: w, u, n, i, o⟩ (some q) ⟨⟨k, t, l1, l2⟩ :: w, u', n', i', o⟩ := by
  have h : WP (body (.exprBp 1)) ⟨⟨k, t, l1, l2⟩ :: w, u, n, i, o⟩ fun r s =>
      ∃ q u' n' i', r = some q ∧ s = ⟨⟨k, t, l1, l2⟩ :: w, u', n', i', o⟩ := by
    have h1 : LITERAL_FIRST.contains k = false := by rcases hk with rfl | rfl <;> decide
    have h2 : ((TokenSet.new [SEMICOLON, R_PAREN]).union (TokenSet.new [EOF])).contains k = true := by
      rcases hk with rfl | rfl <;> decide
    have h3 : k ≠ IDENT ∧ k ≠ L_PAREN ∧ k ≠ L_BRACE ∧ k ≠ STAR ∧ k ≠ BANG ∧ k ≠ MINUS ∧ k ≠ DOT := by
      rcases hk with rfl | rfl <;> decide
    have h4 : opTable k = (0, ATSIGN) := by rcases hk with rfl | rfl <;> rfl
    obtain ⟨h31, h32, h33, h34, h35, h36, h37⟩ := h3
    show WP (exprBpBody 1) _ _
    unfold exprBpBody lhsExpr atomExpr literal errorAndSkipUntil
    simp only [bind_assoc_prog, wp_current, kind0_cons, wp_atTs, h1, Bool.not_false, if_true, pure_bind_prog,
      kind_beq_ne h31, kind_beq_ne h32, kind_beq_ne h33, kind_beq_ne h34, kind_beq_ne h35, kind_beq_ne h36,
      Bool.or_false, Bool.false_eq_true, if_false, wp_start, wp_error]
    refine WP.call ?_
    show WP (skipUntilBody _) _ _
    unfold skipUntilBody
    simp only [wp_current, kind0_cons, h2, if_true, wp_pure, wp_complete]
    refine WP.call ?_
    show WP (postfixLoopBody _) _ _
    unfold postfixLoopBody
    simp only [wp_current, kind0_cons, kind_beq_ne h32, kind_beq_ne h37, if_false, Bool.false_eq_true, wp_pure]
    refine WP.call ?_
    show WP (exprBpLoopBody _ _) _ _
    unfold exprBpLoopBody currentOp
    simp only [bind_assoc_prog, wp_current, kind0_cons, pure_bind_prog, h4]
    simp only [Nat.zero_lt_one, if_true, wp_pure]
    exact ⟨_, _, _, _, rfl, rfl⟩
  obtain ⟨r, s, hr, q, u', n', i', rfl, rfl⟩ := h
  exact ⟨q, u', n', i', hr⟩

/-- A loop at such a token panics or comes back to the same token. -/
theorem lost_again {f : Fn} {t : TState} (h : Lost f (kind0 t.toks)) :
    (∃ w, exec (body f) t = .panic w) ∨ ∃ t', Calls (body f) t f t' ∧ t'.toks = t.toks := by
  obtain ⟨toks, u, n, i, o⟩ := t
  cases f with
  | rootLoop =>
    cases toks with
    | nil => exact absurd h (by simp [Lost, kind0])
    | cons x w =>
      obtain ⟨k, tx, l1, l2⟩ := x
      simp only [Lost, kind0] at h
      refine .inr ?_
      cases k <;> first
        | (exact absurd h (by decide))
        | exact ⟨_, .here rfl, rfl⟩
  | addressItemLoop =>
    cases toks with
    | nil => exact absurd h (by simp [Lost, kind0])
    | cons x w =>
      obtain ⟨k, tx, l1, l2⟩ := x
      simp only [Lost, kind0] at h
      refine .inl ?_
      cases k <;> first
        | (exact absurd h (by decide))
        | exact ⟨_, rfl⟩
  | itemLoop =>
    cases toks with
    | nil => exact absurd h (by simp [Lost, kind0])
    | cons x w =>
      obtain ⟨k, tx, l1, l2⟩ := x
      simp only [Lost, kind0] at h
      refine .inr ?_
      cases k <;> first
        | (exact absurd h (by decide))
        | exact ⟨_, .here rfl, rfl⟩
  | recordFieldLoop =>
    cases toks with
    | nil => exact absurd h (by simp [Lost, kind0])
    | cons x w =>
      obtain ⟨k, tx, l1, l2⟩ := x
      simp only [Lost, kind0] at h
      subst h
      exact .inr ⟨_, .here rfl, rfl⟩
  | blockLoop =>
    cases toks with
    | nil => exact absurd h (by simp [Lost, kind0])
    | cons x w =>
      obtain ⟨k, tx, l1, l2⟩ := x
      simp only [Lost, kind0] at h
      subst h
      obtain ⟨q, u', n', i', hr⟩ := expr_idle (.inl rfl) tx l1 l2 w (u + 2 + 1) (n + 1) .nil ((.nil, i) :: o)
      exact .inr ⟨_, .after rfl (.call rfl hr (.done rfl)) (.here rfl), rfl⟩
  | exprBlockLoop =>
    cases toks with
    | nil => exact absurd h (by simp [Lost, kind0])
    | cons x w =>
      obtain ⟨k, tx, l1, l2⟩ := x
      simp only [Lost, kind0] at h
      subst h
      obtain ⟨q, u', n', i', hr⟩ := expr_idle (.inl rfl) tx l1 l2 w (u + 2 + 1 + 1) (n + 1) .nil ((.nil, i) :: o)
      exact .inr ⟨_, .after rfl (.call rfl hr (.done rfl)) (.here rfl), rfl⟩
  | parenLoop =>
    cases toks with
    | nil => exact absurd h (by simp [Lost, kind0])
    | cons x w =>
      obtain ⟨k, tx, l1, l2⟩ := x
      simp only [Lost, kind0] at h
      subst h
      obtain ⟨q, u', n', i', hr⟩ := expr_idle (.inr rfl) tx l1 l2 w (u + 2) n i o
      exact .inr ⟨_, .after rfl hr (.here rfl), rfl⟩
  | _ => exact absurd h (by simp [Lost])

theorem lost_never {f : Fn} {t : TState} (h : Lost f (kind0 t.toks)) (n : Nat) (r : f.Res) (t' : TState) :
    callN tokenFree body n f t ≠ .ok r t' := by
  induction n using Nat.strongRecOn generalizing t r t' with
  | _ n ih =>
    cases n with
    | zero => intro hc; cases hc
    | succ n =>
      intro hc
      rcases lost_again h with ⟨w, hw⟩ | ⟨t2, h2, ht⟩
      · have hc : run tokenFree (callN tokenFree body n) (body f) t = .ok r t' := hc
        rw [run_exec, hw] at hc
        cases hc
      · obtain ⟨m, r', t'', hm, h3⟩ := calls_finish h2 n r t' hc
        exact ih m (by omega) (by rw [ht]; exact h) r' t'' h3

/-- A run that gets lost does not finish. -/
theorem strays_never {α : Type} {p : Prog α} {s s' : TState} {a : α} (h : Strays p s) : ¬ Runs p s a s' := by
  intro hr
  obtain ⟨f, t, hc, hl⟩ := h
  obtain ⟨N, hN⟩ := hr.run
  obtain ⟨m, r, t', _, h1⟩ := calls_finish hc N a s' (hN N (Nat.le_refl _))
  exact lost_never hl m r t' h1

/-! ### C34 -/

/-- The outcome of the parser is that of the run on tokens. -/
theorem parse_run {text : Text} {ts : List (Kind × Text)} (hl : Lexes text ts) :
    (∃ s kind tree errors, run tokenLevel (callN tokenLevel body (maxDepth text)) root ⟨annot ts, 0, 0, .nil, []⟩ = .ok () s ∧
      parse text = .ok kind tree errors) ∨
    ∃ w, Allowed w ∧ run tokenLevel (callN tokenLevel body (maxDepth text)) root ⟨annot ts, 0, 0, .nil, []⟩ = .panic w ∧
      parse text = .panic w := by
  obtain ⟨lx, hnew, hst⟩ := Stands.new hl
  have hg := root_good hnew (maxDepth text) (Nat.le_refl _)
  have he := run_erases (M := highLevel) (cb := callB highLevel body (maxDepth text))
    (c := callN highLevel body (maxDepth text))
    (fun f s => callB_erases highLevel body (maxDepth text) (maxDepth text) (Nat.le_refl _) f s) root
    (HState.initial lx, maxDepth text)
  have hlow := highLevel_agree.run (callN_agree highLevel_agree body (maxDepth text)) root (HState.initial lx)
    (PState.initial lx) ⟨rfl, rfl, rfl, rfl, trivial, trivial⟩
  have ha := tokenLevel_agree.run (callN_agree tokenLevel_agree body (maxDepth text)) root
    (HState.initial lx) ⟨annot ts, 0, 0, .nil, []⟩ ⟨⟨ts, hst, rfl⟩, rfl, rfl, rfl, rfl⟩
  generalize run (budgeted highLevel) (callB highLevel body (maxDepth text)) root
    (HState.initial lx, maxDepth text) = ob at hg he
  rcases he with rfl | he
  · exact absurd hg id
  · simp only at he
    rw [he] at hlow ha
    cases ob with
    | ok a s =>
      obtain ⟨h, b⟩ := s
      obtain ⟨l, e3, rep⟩ := hlow
      obtain ⟨s, e6, _⟩ := ha
      refine .inl ⟨s, ?_⟩
      have e4 : parseEvents (maxDepth text) text = .ok () l := by
        unfold parseEvents
        rw [hnew]
        exact e3
      rcases parseWithDepth_cases text _ (Nat.le_refl _) with ⟨w', _, h2, _⟩ | ⟨_, _, t, e, _, _, _, _, h1, _⟩
      · rw [e4] at h2; cases h2
      · exact ⟨_, t, e, e6, h1⟩
    | panic w =>
      have e3 : run lowLevel (callN lowLevel body (maxDepth text)) root (PState.initial lx) = .panic w := by
        rcases hg with rfl | rfl | rfl <;> exact hlow
      have e6 : run tokenLevel (callN tokenLevel body (maxDepth text)) root ⟨annot ts, 0, 0, .nil, []⟩ = .panic w := by
        rcases hg with rfl | rfl | rfl <;> exact ha
      refine .inr ⟨w, hg, e6, ?_⟩
      unfold parse parseWithDepth parseEvents
      rw [hnew]
      simp only [PState.initial] at e3
      simp only [e3]
    | outOfFuel => exact absurd hg id

theorem annotSig_length (ts : List (Kind × Text)) : (annotSig ts).length = (significant ts).length := by
  induction ts with
  | nil => rfl
  | cons x ts ih =>
    unfold annotSig significant
    rw [List.filter_cons]
    have e : (!(x.1 == WHITESPACE || x.1 == COMMENT)) = !x.1.isTrivia := by cases x.1 <;> rfl
    rw [e]
    by_cases h : x.1.isTrivia = true
    · rw [h]; exact ih
    · rw [if_neg h, if_pos (by simpa using h), List.length_cons, List.length_cons, ih]
      rfl

theorem annot_length (ts : List (Kind × Text)) : (annot ts).length ≤ (significant ts).length + 1 := by
  cases ts with
  | nil => exact Nat.zero_le _
  | cons x ts =>
    show (annotSig ts).length + 1 ≤ _
    rw [annotSig_length]
    unfold significant
    rw [List.filter_cons]
    split <;> simp

/-- **C34 does not hold**: a text that makes a loop of the parser stand at a token that it neither consumes nor ends
at makes the parser panic, however long the text is. -/
theorem lost_panics {text : Text} {ts : List (Kind × Text)} (hl : Lexes text ts) (h : GetsLost ts) :
    parse text = .panic .lexer ∨ parse text = .panic .stuck ∨ parse text = .panic (.assertion "module") := by
  rcases parse_run hl with ⟨s, kind, tree, errors, h1, _⟩ | ⟨w, hw, _, h2⟩
  · have : Runs root ⟨annot ts, 0, 0, .nil, []⟩ () s :=
      runs_of_run (look := tNthLimited) (fun n s k s' h => by
        unfold tNthLimited at h
        split at h
        · split at h
          · exact h
          · cases h
        · cases h) (callN_runs _) h1
    exact absurd this (strays_never h)
  · rcases hw with rfl | rfl | rfl
    · exact .inl h2
    · exact .inr (.inl h2)
    · exact .inr (.inr h2)

/-- Every other text that is not too long is parsed. -/
theorem not_lost_parses {text : Text} {ts : List (Kind × Text)} (hl : Lexes text ts) (hn : (significant ts).length ≤ 907)
    (h : ¬ GetsLost ts) : ∃ kind tree errors, parse text = .ok kind tree errors := by
  rcases parse_run hl with ⟨s, kind, tree, errors, _, h2⟩ | ⟨w, hw, h1, _⟩
  · exact ⟨kind, tree, errors, h2⟩
  · exfalso
    have hlen := annot_length ts
    have hk : Ck root (kind0 (annot ts)) 6 fun _ _ _ => True := by
      unfold root
      exact ck_bind (ck_start fun m => ck_bind (ck_call (Nat.le_refl _) fun _ _ _ _ =>
        ck_bind (ck_complete fun _ => ck_pure trivial)))
    rcases Ck.sound (L := stepLimit + 1) (Nat.le_refl _) (callN_runs (maxDepth text))
      (fun f s c h1 h2 h3 => callN_fine bodies_ck (Nat.le_refl _) (maxDepth text) f s c h1 h2 h3)
      (p := root) (s := ⟨annot ts, 0, 0, .nil, []⟩) hk (by simp only [stepLimit]; omega) with h3 | h3
    · exact h h3
    · rw [h1] at h3
      exact h3 hw

/-- **C34, partial**: a text of at most 907 tokens besides whitespace and comments is parsed exactly if it consists of
tokens and the parser does not get lost in it.  Missing: that this is so for all texts; it is not, see
`parse_carriage_return`, `parse_address_fun`, `parse_stray_token` and the examples below, and longer texts can exceed
the limit of the parser (C57). -/
theorem returns_tree_iff_partial {text : Text}
    (hn : ∀ ts, Lexes text ts → (significant ts).length ≤ 907) :
    (∃ kind tree errors, parse text = .ok kind tree errors) ↔ ∃ ts, Lexes text ts ∧ ¬ GetsLost ts := by
  constructor
  · rintro ⟨kind, tree, errors, hp⟩
    rcases parseWithDepth_cases text _ (Nat.le_refl _) with ⟨w, h1, _⟩ | ⟨_, _, _, _, ts, _, _, _, _, hl, _⟩
    · have : parse text = .panic w := h1
      rw [this] at hp; cases hp
    · refine ⟨ts, hl, fun h => ?_⟩
      rcases lost_panics hl h with h1 | h1 | h1 <;> (rw [h1] at hp; cases hp)
  · rintro ⟨ts, hl, h⟩
    exact not_lost_parses hl (hn ts hl) h

/-! ### Witnesses -/

/-- The calls in the first `n` levels of a run, looked through for one that the parser does not get past. -/
def seek {α : Type} : Nat → Prog α → TState → Option (Option (α × TState))
  | 0, _, _ => none
  | n + 1, p, s =>
    match exec p s with
    | .done a s' => some (some (a, s'))
    | .call f s1 k =>
      if Lost f (kind0 s1.toks) then some none
      else match seek n (body f) s1 with
        | none => none
        | some none => some none
        | some (some (r, s2)) => seek n (k r) s2
    | _ => none

theorem seek_sound (n : Nat) : ∀ {α : Type} (p : Prog α) (s : TState),
    (seek n p s = some none → Strays p s) ∧ ∀ a s', seek n p s = some (some (a, s')) → Runs p s a s' := by
  induction n with
  | zero => intro α p s; exact ⟨fun h => (by cases h), fun _ _ h => (by cases h)⟩
  | succ n ih =>
    intro α p s
    unfold seek
    cases hx : exec p s with
    | done a s' => exact ⟨fun h => (by cases h), fun _ _ h => (by cases h; exact .done hx)⟩
    | panic w => exact ⟨fun h => (by cases h), fun _ _ h => (by cases h)⟩
    | outOfFuel => exact ⟨fun h => (by cases h), fun _ _ h => (by cases h)⟩
    | call f s1 k =>
      simp only
      split
      · rename_i hl
        exact ⟨fun _ => ⟨f, s1, .here hx, hl⟩, fun _ _ h => (by cases h)⟩
      · split
        · exact ⟨fun h => (by cases h), fun _ _ h => (by cases h)⟩
        · rename_i h1
          obtain ⟨g, t, h2, h3⟩ := (ih (body f) s1).1 h1
          exact ⟨fun _ => ⟨g, t, .inside hx h2, h3⟩, fun _ _ h => (by cases h)⟩
        · rename_i r s2 h1
          have h2 := (ih (body f) s1).2 r s2 h1
          refine ⟨fun h => ?_, fun a s' h => ?_⟩
          · obtain ⟨g, t, h3, h4⟩ := (ih (k r) s2).1 h
            exact ⟨g, t, .after hx h2 h3, h4⟩
          · exact .call hx h2 ((ih (k r) s2).2 a s' h)

/-- The search finds a call that the parser does not get past. -/
def findsLost (ts : List (Kind × Text)) : Bool :=
  match seek 60 root ⟨annot ts, 0, 0, .nil, []⟩ with
  | some none => true
  | _ => false

theorem gets_lost_of {ts : List (Kind × Text)} (h : findsLost ts = true) : GetsLost ts := by
  unfold findsLost at h
  split at h
  · rename_i h1; exact (seek_sound 60 root _).1 h1
  · cases h

/-- A token that starts no item, after a module. -/
example : ∃ ts, Lexes "module M {} a".toList ts ∧ GetsLost ts :=
  ⟨
      [(MODULE_KW, "module".toList), (WHITESPACE, " ".toList), (IDENT, "M".toList), (WHITESPACE, " ".toList),
        (L_BRACE, "{".toList), (R_BRACE, "}".toList), (WHITESPACE, " ".toList), (IDENT, "a".toList)],
    lexes_of_check (by decide +kernel), gets_lost_of (by decide +kernel)⟩

/-- The same in an address block. -/
example : ∃ ts, Lexes "address 0x1 { a }".toList ts ∧ GetsLost ts :=
  ⟨
      [(ADDRESS_KW, "address".toList), (WHITESPACE, " ".toList), (INTEGER_NUMBER, "0x1".toList),
        (WHITESPACE, " ".toList), (L_BRACE, "{".toList), (WHITESPACE, " ".toList), (IDENT, "a".toList),
        (WHITESPACE, " ".toList), (R_BRACE, "}".toList)],
    lexes_of_check (by decide +kernel), gets_lost_of (by decide +kernel)⟩

/-- The same in a module. -/
example : ∃ ts, Lexes "module M { a }".toList ts ∧ GetsLost ts :=
  ⟨
      [(MODULE_KW, "module".toList), (WHITESPACE, " ".toList), (IDENT, "M".toList), (WHITESPACE, " ".toList),
        (L_BRACE, "{".toList), (WHITESPACE, " ".toList), (IDENT, "a".toList), (WHITESPACE, " ".toList),
        (R_BRACE, "}".toList)],
    lexes_of_check (by decide +kernel), gets_lost_of (by decide +kernel)⟩

/-- A brace among the fields of a struct. -/
example : ∃ ts, Lexes "module M { struct S { { } }".toList ts ∧ GetsLost ts :=
  ⟨
      [(MODULE_KW, "module".toList), (WHITESPACE, " ".toList), (IDENT, "M".toList), (WHITESPACE, " ".toList),
        (L_BRACE, "{".toList), (WHITESPACE, " ".toList), (STRUCT_KW, "struct".toList),
        (WHITESPACE, " ".toList), (IDENT, "S".toList), (WHITESPACE, " ".toList), (L_BRACE, "{".toList),
        (WHITESPACE, " ".toList), (L_BRACE, "{".toList), (WHITESPACE, " ".toList), (R_BRACE, "}".toList),
        (WHITESPACE, " ".toList), (R_BRACE, "}".toList)],
    lexes_of_check (by decide +kernel), gets_lost_of (by decide +kernel)⟩

/-- A closing parenthesis in the body of a function. -/
example : ∃ ts, Lexes "module M { fun f() { ) } }".toList ts ∧ GetsLost ts :=
  ⟨
      [(MODULE_KW, "module".toList), (WHITESPACE, " ".toList), (IDENT, "M".toList), (WHITESPACE, " ".toList),
        (L_BRACE, "{".toList), (WHITESPACE, " ".toList), (FUN_KW, "fun".toList), (WHITESPACE, " ".toList),
        (IDENT, "f".toList), (L_PAREN, "(".toList), (R_PAREN, ")".toList), (WHITESPACE, " ".toList),
        (L_BRACE, "{".toList), (WHITESPACE, " ".toList), (R_PAREN, ")".toList), (WHITESPACE, " ".toList),
        (R_BRACE, "}".toList), (WHITESPACE, " ".toList), (R_BRACE, "}".toList)],
    lexes_of_check (by decide +kernel), gets_lost_of (by decide +kernel)⟩

/-- A closing parenthesis in another block. -/
example : ∃ ts, Lexes "module M { fun f() { if (a) { ) } } }".toList ts ∧ GetsLost ts :=
  ⟨
      [(MODULE_KW, "module".toList), (WHITESPACE, " ".toList), (IDENT, "M".toList), (WHITESPACE, " ".toList),
        (L_BRACE, "{".toList), (WHITESPACE, " ".toList), (FUN_KW, "fun".toList), (WHITESPACE, " ".toList),
        (IDENT, "f".toList), (L_PAREN, "(".toList), (R_PAREN, ")".toList), (WHITESPACE, " ".toList),
        (L_BRACE, "{".toList), (WHITESPACE, " ".toList), (IF_KW, "if".toList), (WHITESPACE, " ".toList),
        (L_PAREN, "(".toList), (IDENT, "a".toList), (R_PAREN, ")".toList), (WHITESPACE, " ".toList),
        (L_BRACE, "{".toList), (WHITESPACE, " ".toList), (R_PAREN, ")".toList), (WHITESPACE, " ".toList),
        (R_BRACE, "}".toList), (WHITESPACE, " ".toList), (R_BRACE, "}".toList), (WHITESPACE, " ".toList),
        (R_BRACE, "}".toList)],
    lexes_of_check (by decide +kernel), gets_lost_of (by decide +kernel)⟩

/-- A semicolon between parentheses. -/
example : ∃ ts, Lexes "module M { fun f() { (a; } }".toList ts ∧ GetsLost ts :=
  ⟨
      [(MODULE_KW, "module".toList), (WHITESPACE, " ".toList), (IDENT, "M".toList), (WHITESPACE, " ".toList),
        (L_BRACE, "{".toList), (WHITESPACE, " ".toList), (FUN_KW, "fun".toList), (WHITESPACE, " ".toList),
        (IDENT, "f".toList), (L_PAREN, "(".toList), (R_PAREN, ")".toList), (WHITESPACE, " ".toList),
        (L_BRACE, "{".toList), (WHITESPACE, " ".toList), (L_PAREN, "(".toList), (IDENT, "a".toList),
        (SEMICOLON, ";".toList), (WHITESPACE, " ".toList), (R_BRACE, "}".toList), (WHITESPACE, " ".toList),
        (R_BRACE, "}".toList)],
    lexes_of_check (by decide +kernel), gets_lost_of (by decide +kernel)⟩

/-- A text in which the parser does not get lost. -/
example : ∃ ts, Lexes "module M { fun f(a: u8): u8 { let b = (a + 1); b } }".toList ts ∧
    (significant ts).length ≤ 907 ∧ ¬ GetsLost ts := by
  have h : (match parse "module M { fun f(a: u8): u8 { let b = (a + 1); b } }".toList with
    | .ok _ _ _ => true | _ => false) = true := by decide +kernel
  split at h
  · rename_i kind tree errors hp
    have hl : Lexes "module M { fun f(a: u8): u8 { let b = (a + 1); b } }".toList
      [(MODULE_KW, "module".toList), (WHITESPACE, " ".toList), (IDENT, "M".toList), (WHITESPACE, " ".toList),
        (L_BRACE, "{".toList), (WHITESPACE, " ".toList), (FUN_KW, "fun".toList), (WHITESPACE, " ".toList),
        (IDENT, "f".toList), (L_PAREN, "(".toList), (IDENT, "a".toList), (COLON, ":".toList),
        (WHITESPACE, " ".toList), (IDENT, "u8".toList), (R_PAREN, ")".toList), (COLON, ":".toList),
        (WHITESPACE, " ".toList), (IDENT, "u8".toList), (WHITESPACE, " ".toList), (L_BRACE, "{".toList),
        (WHITESPACE, " ".toList), (LET_KW, "let".toList), (WHITESPACE, " ".toList), (IDENT, "b".toList),
        (WHITESPACE, " ".toList), (EQ, "=".toList), (WHITESPACE, " ".toList), (L_PAREN, "(".toList),
        (IDENT, "a".toList), (WHITESPACE, " ".toList), (PLUS, "+".toList), (WHITESPACE, " ".toList),
        (INTEGER_NUMBER, "1".toList), (R_PAREN, ")".toList), (SEMICOLON, ";".toList), (WHITESPACE, " ".toList),
        (IDENT, "b".toList), (WHITESPACE, " ".toList), (R_BRACE, "}".toList), (WHITESPACE, " ".toList),
        (R_BRACE, "}".toList)] :=
      lexes_of_check (by decide +kernel)
    refine ⟨_, hl, by decide, fun hg => ?_⟩
    rcases lost_panics hl hg with h1 | h1 | h1 <;> (rw [h1] at hp; cases hp)
  · cases h

end Verif.Parser
