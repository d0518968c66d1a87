import Verif.Parser.Tree
import Verif.Parser.Stream

set_option autoImplicit false

/-!
C30 (lossless), C31 (well formed), C32 (termination), C33 (error positions), C34 (panics).
-/

namespace Verif.Parser

open Verif

/-- A text used as witness below. -/
def sample : Text := "// c\nmodule 0x1::M { fun f(x: u8) { let y = 1 + x * ; } }\n".toList

/-- The tree of a text, if parsing returns one. -/
def treeOf (text : Text) : Option Green :=
  match parse text with
  | .ok _ tree _ => some tree
  | _ => none

/-- The errors of a text, if parsing returns. -/
def errorsOf (text : Text) : Option (List SyntaxError) :=
  match parse text with
  | .ok _ _ errors => some errors
  | _ => none

/-- Everything about an outcome at once. -/
theorem parseWithDepth_cases (text : Text) (n : Nat) (hn : maxDepth text ≤ n) :
    (∃ w, parseWithDepth n text = .panic w ∧ parseEvents n text = .panic w ∧ Allowed w) ∨
    ∃ s ops tree errors ts, parseEvents n text = .ok () s ∧ process s.events = some ops ∧ Balanced ops ∧
      parseWithDepth n text = .ok .SOURCE_FILE tree errors ∧ Lexer.Lexes text ts ∧
      TreeOk ts tree errors := by
  rcases parseEvents_cases text n hn with ⟨w, h, hw⟩ | ⟨l, h, he, fin, rep⟩
  · exact .inl ⟨w, by unfold parseWithDepth; rw [h], h, hw⟩
  · obtain ⟨ops, sink, tree, errors, ts, h1, h2, h3, h4, h5, h6⟩ := build_tree fin rep
    refine .inr ⟨l, ops, tree, errors, ts, he, h1, h2, ?_, h5, h6⟩
    unfold parseWithDepth
    rw [he]
    simp only [h1, h3, h4]
    rfl

theorem parse_ok {text : Text} {kind : Kind} {tree : Green} {errors : List SyntaxError}
    (h : parse text = .ok kind tree errors) :
    kind = .SOURCE_FILE ∧ ∃ ts, Lexer.Lexes text ts ∧ TreeOk ts tree errors := by
  rcases parseWithDepth_cases text _ (Nat.le_refl _) with ⟨w, h1, _⟩ | ⟨s, ops, t, e, ts, _, _, _, h1, h2, h3⟩
  · unfold parse at h
    rw [h1] at h
    cases h
  · unfold parse at h
    rw [h1] at h
    cases h
    exact ⟨rfl, ts, h2, h3⟩

theorem SameTokens.texts {ls ts : List (Kind × Text)} (h : SameTokens ls ts) :
    ls.map Prod.snd = ts.map Prod.snd := by
  induction h with
  | nil => rfl
  | snoc _ _ ih => simp [ih]

theorem SameTokens.kinds {ls ts : List (Kind × Text)} (h : SameTokens ls ts) :
    ∀ x ∈ ls, ∃ y ∈ ts, y.2 = x.2 ∧ (x.1 = y.1 ∨ x.1 = .DIEM_ADDRESS) := by
  induction h with
  | nil => intro x hx; cases hx
  | @snoc ls ts kl kt u _ hk ih =>
    intro x hx
    rw [List.mem_append, List.mem_singleton] at hx
    rcases hx with hx | rfl
    · obtain ⟨y, h1, h2⟩ := ih x hx
      exact ⟨y, List.mem_append_left _ h1, h2⟩
    · refine ⟨(kt, u), by simp, rfl, ?_⟩
      rcases hk with rfl | ⟨_, rfl⟩
      · exact .inl rfl
      · exact .inr rfl

/-! ### C30 -/

/-- **C30.**  The text of the syntax tree is the input text. -/
theorem parse_lossless {text : Text} {kind : Kind} {tree : Green} {errors : List SyntaxError}
    (h : parse text = .ok kind tree errors) : tree.text = text := by
  obtain ⟨_, ts, h1, h2⟩ := parse_ok h
  unfold Green.text
  rw [h2.leaves.texts]
  have := h1.text
  simpa using this.symm

/-- **C30.**  Its leaves are the tokens of the text, one by one and in order. -/
theorem parse_leaves {text : Text} {kind : Kind} {tree : Green} {errors : List SyntaxError}
    (h : parse text = .ok kind tree errors) :
    ∃ ts, Lexer.Lexes text ts ∧ SameTokens tree.leaves ts := by
  obtain ⟨_, ts, h1, h2⟩ := parse_ok h
  exact ⟨ts, h1, h2.leaves⟩

example : (treeOf sample).map Green.text = some sample := by decide +kernel

/-! ### C31 -/

/-- **C31.**  When the grammar returns, the calls made on the tree builder are balanced, building
the tree succeeds, and the root is a `SOURCE_FILE`. -/
theorem events_build_tree {text : Text} {n : Nat} {s : PState} (hn : maxDepth text ≤ n)
    (h : parseEvents n text = .ok () s) :
    ∃ ops tree errors, process s.events = some ops ∧ Balanced ops ∧
      parseWithDepth n text = .ok .SOURCE_FILE tree errors := by
  rcases parseWithDepth_cases text n hn with ⟨w, _, h1, _⟩ | ⟨s', ops, t, e, ts, h0, h1, h2, h3, _⟩
  · rw [h1] at h; cases h
  · rw [h0] at h
    cases h
    exact ⟨ops, t, e, h1, h2, h3⟩

/-- **C31.**  The root is a `SOURCE_FILE`; every inner node has the kind of a node; every leaf has
the kind of its token or is an address.  In particular no `TOMBSTONE` or `EOF` occurs. -/
theorem parse_kinds {text : Text} {kind : Kind} {tree : Green} {errors : List SyntaxError}
    (h : parse text = .ok kind tree errors) :
    kind = .SOURCE_FILE ∧ (∀ k ∈ tree.nodeKinds, isNodeKind k = true) ∧
      (∀ x ∈ tree.leaves, (Lexer.isTokenKind x.1 = true ∨ x.1 = .DIEM_ADDRESS) ∧ x.2 ≠ []) ∧
      ∀ k ∈ kind :: tree.nodeKinds ++ tree.leaves.map Prod.fst, k ≠ .TOMBSTONE ∧ k ≠ .EOF := by
  obtain ⟨rfl, ts, h1, h2⟩ := parse_ok h
  have hleaf : ∀ x ∈ tree.leaves, (Lexer.isTokenKind x.1 = true ∨ x.1 = .DIEM_ADDRESS) ∧ x.2 ≠ [] := by
    intro x hx
    obtain ⟨y, hy, hyx, hk⟩ := h2.leaves.kinds x hx
    obtain ⟨h3, h4⟩ := Lexer.Steps.kinds h1 y hy
    refine ⟨?_, by rw [← hyx]; exact h4⟩
    rcases hk with hk | hk
    · rw [hk]; exact .inl h3
    · exact .inr hk
  refine ⟨rfl, h2.kinds, hleaf, ?_⟩
  intro k hk
  rw [List.mem_append, List.mem_cons, List.mem_map] at hk
  rcases hk with (rfl | hk) | ⟨x, hx, rfl⟩
  · decide
  · have := h2.kinds k hk
    constructor <;> (rintro rfl; revert this; decide)
  · have := (hleaf x hx).1
    constructor <;> (intro he; rw [he] at this; revert this; decide)

example : (treeOf sample).map (fun t => t.nodeKinds.length) = some 25 := by decide +kernel

/-! ### C32 -/

/-- **C32.**  Parsing a text never runs for ever: it returns a tree or panics. -/
theorem parse_terminates (text : Text) : parse text ≠ .outOfFuel := by
  rcases parseWithDepth_cases text _ (Nat.le_refl _) with ⟨w, h, _⟩ | ⟨_, _, t, e, _, _, _, _, h, _⟩
  · unfold parse; rw [h]; intro hh; cases hh
  · unfold parse; rw [h]; intro hh; cases hh

/-- **C32.**  It does not depend on the recursion bound of the model. -/
theorem parse_depth (text : Text) (n : Nat) (hn : maxDepth text ≤ n) :
    parseWithDepth n text = parse text := by
  unfold parse parseWithDepth
  rw [parseEvents_depth text n hn]

/-- **C32.**  The number of parser operations and calls of grammar functions is linear in the
length of the text: a run in which each of them uses up one unit of a budget of
`200 · (10001 + length) + 32` does not exhaust it. -/
theorem parse_steps_linear {text : Text} {lx : Lexer.Lexer} (hnew : Lexer.new text = some lx)
    (n : Nat) (hn : 200 * (10001 + byteLen text) + 32 ≤ n) :
    run (budgeted lowLevel) (callB lowLevel body n) root
      (⟨lx, [], 0⟩, 200 * (10001 + byteLen text) + 32) ≠ .outOfFuel := by
  have h := root_low hnew n hn
  have hb : maxDepth text = 200 * (10001 + byteLen text) + 32 := rfl
  rw [hb] at h
  intro he
  simp only [PState.initial] at h
  rw [he] at h
  exact h

example : ∃ lx, Lexer.new sample = some lx := ⟨_, rfl⟩

/-! ### C33 -/

/-- **C33.**  Errors are reported at token boundaries inside the text, in text order. -/
theorem parse_errors {text : Text} {kind : Kind} {tree : Green} {errors : List SyntaxError}
    (h : parse text = .ok kind tree errors) :
    errors.Pairwise (fun a b => a.offset ≤ b.offset) ∧
      ∃ ts, Lexer.Lexes text ts ∧ ∀ e ∈ errors, AtBoundary ts e.offset ∧ e.offset ≤ byteLen text := by
  obtain ⟨_, ts, h1, h2⟩ := parse_ok h
  refine ⟨h2.errs, ts, h1, fun e he => ⟨h2.bound e he, ?_⟩⟩
  obtain ⟨a, b, rfl, hn⟩ := h2.bound e he
  have htext := h1.text
  rw [htext, hn]
  simp only [List.map_append, List.flatten_append, byteLen_append]
  omega

example : (errorsOf sample).map (·.map SyntaxError.offset) = some [52] := by decide +kernel

/-! ### C34 -/

/-- **C34, partial.**  A panic of the parser is one of three: the lexer has no token for the
text, the step limit was exceeded, or something other than a module stands in an address block.
No assertion on tokens, markers or events ever fails, no index is out of range, and building the
tree never panics.  Missing: that these three do not happen; they do, see below. -/
theorem parse_panics_partial {text : Text} {w : Panic} (h : parse text = .panic w) :
    w = .lexer ∨ w = .stuck ∨ w = .assertion "module" := by
  rcases parseWithDepth_cases text _ (Nat.le_refl _) with ⟨w', h1, _, hw⟩ | ⟨_, _, t, e, _, _, _, _, h1, _⟩
  · unfold parse at h; rw [h1] at h; cases h; exact hw
  · unfold parse at h; rw [h1] at h; cases h

/-- **C34 does not hold**: a carriage return makes the parser panic. -/
theorem parse_carriage_return : parse "module M {}\r\n".toList = .panic .lexer := by decide +kernel

/-- **C34 does not hold**: a function in an address block makes the parser panic. -/
theorem parse_address_fun : parse "address 0x1 { fun f() {} }".toList = .panic (.assertion "module") := by
  decide +kernel

theorem run_at (c : (f : Fn) → PState → Out PState f.Res) {α : Type} (k : Kind) (f : Bool → Prog α)
    (s : PState) : run lowLevel c (at_ k >>= f) s =
      if s.steps ≤ stepLimit then
        run lowLevel c (f (s.lexer.token.kind == k)) { s with steps := s.steps + 1 }
      else .panic .stuck := by
  show Out.bind (pNth 0 s) _ = _
  simp only [pNth, Lexer.Lexer.lookaheadNth]
  by_cases h : s.steps ≤ stepLimit
  · simp only [h, if_true]; rfl
  · simp only [h, if_false]; rfl

/-- The loop of `root` does not get past a token that starts no top-level item. -/
theorem rootLoop_stray (n : Nat) (s : PState)
    (hk : s.lexer.token.kind ∉ [Kind.EOF, .MODULE_KW, .SCRIPT_KW, .ADDRESS_KW])
    (ht : s.lexer.token.kind.isTrivia = false) :
    callN lowLevel body n .rootLoop s = .outOfFuel ∨
      callN lowLevel body n .rootLoop s = .panic .stuck := by
  induction n generalizing s with
  | zero => exact .inl rfl
  | succ n ih =>
    have hk' := hk
    simp only [List.mem_cons, List.not_mem_nil, or_false, not_or] at hk'
    obtain ⟨h1, h2, h3, h4⟩ := hk'
    have b1 : (s.lexer.token.kind == Kind.EOF) = false := by simpa using h1
    have b2 : (s.lexer.token.kind == Kind.MODULE_KW) = false := by simpa using h2
    have b3 : (s.lexer.token.kind == Kind.SCRIPT_KW) = false := by simpa using h3
    have b4 : (s.lexer.token.kind == Kind.ADDRESS_KW) = false := by simpa using h4
    show run lowLevel (callN lowLevel body n) rootLoopBody s = _ ∨
      run lowLevel (callN lowLevel body n) rootLoopBody s = _
    unfold rootLoopBody
    simp only [run_at, b1, b2, b3, b4, Bool.not_false, if_true, Bool.false_eq_true, if_false]
    split
    · split
      · split
        · split
          · have h := ih ⟨s.lexer, s.events ++ [.error "expected module or script"],
              s.steps + 1 + 1 + 1 + 1⟩ hk ht
            have he : ∀ q : PState, q.lexer.token.kind.isTrivia = false →
                run lowLevel (callN lowLevel body n) (do
                  if (← current).isTrivia = true then do
                    bumpAny
                    call Fn.rootLoop
                  else do
                    error "expected module or script"
                    call Fn.rootLoop) q
                = callN lowLevel body n .rootLoop
                    { q with events := q.events ++ [.error "expected module or script"] } := by
              intro q hq
              show run lowLevel (callN lowLevel body n)
                (if q.lexer.token.kind.isTrivia = true then _ else _) q = _
              rw [hq]
              show Out.bind (callN lowLevel body n .rootLoop
                { q with events := q.events ++ [.error "expected module or script"] })
                (fun r s' => .ok r s') = _
              cases callN lowLevel body n .rootLoop
                { q with events := q.events ++ [.error "expected module or script"] } <;> rfl
            rw [he]
            · exact h
            · exact ht
          · exact .inr rfl
        · exact .inr rfl
      · exact .inr rfl
    · exact .inr rfl

/-- **C34 does not hold**: when the first token that is not whitespace or a comment is none of
`module`, `script` and `address`, the parser panics. -/
theorem parse_stray_token {text : Text} {ts : List (Kind × Text)} {k : Kind} {u : Text}
    (hl : Lexer.Lexes text ts) (hk : (Lexer.significant ts).head? = some (k, u))
    (hne : k ∉ [Kind.MODULE_KW, .SCRIPT_KW, .ADDRESS_KW]) : parse text = .panic .stuck := by
  have hkind : ∀ x ∈ Lexer.significant ts, x.1.isTrivia = false ∧ x.1 ≠ .EOF := by
    intro x hx
    unfold Lexer.significant at hx
    rw [List.mem_filter] at hx
    exact ⟨by simpa [Kind.isTrivia] using hx.2, Lexer.isTokenKind_ne_eof (Lexer.Steps.kinds hl x hx.1).1⟩
  have hmem : (k, u) ∈ Lexer.significant ts := List.mem_of_mem_head? (by rw [hk]; rfl)
  obtain ⟨ht, he⟩ := hkind _ hmem
  have hne' : k ∉ [Kind.EOF, .MODULE_KW, .SCRIPT_KW, .ADDRESS_KW] := by
    rw [List.mem_cons, not_or]; exact ⟨he, hne⟩
  have hskip : Lexer.headKind (Lexer.skip ts) = k := by
    unfold Lexer.skip Lexer.significant at *
    clear hkind hmem hl
    induction ts with
    | nil => cases hk
    | cons x ts ih =>
      rw [List.dropWhile_cons]
      rw [List.filter_cons] at hk
      split
      · rename_i hx
        rw [if_neg (by simp only [Kind.isTrivia] at hx; rw [hx]; simp)] at hk
        exact ih hk
      · rename_i hx
        rw [if_pos (by simpa [Kind.isTrivia] using hx)] at hk
        cases hk
        rfl
  obtain ⟨lx, hnew, hat⟩ := Lexer.At.new hl
  have hloop : ∀ n, callN lowLevel body n .rootLoop ⟨lx, [.tombstone], 0⟩ = .outOfFuel ∨
      callN lowLevel body n .rootLoop ⟨lx, [.tombstone], 0⟩ = .panic .stuck := by
    intro n
    cases hx : ts with
    | nil => rw [hx] at hk; cases hk
    | cons x ts' =>
      subst hx
      have hcur : lx.token.kind = x.1 := hat.kind
      cases htx : x.1.isTrivia with
      | false =>
        have : x.1 = k := by
          rw [Lexer.skip, List.dropWhile_cons, if_neg (by simp [htx])] at hskip
          exact hskip
        refine rootLoop_stray n _ ?_ ?_
        · simp only [hcur, this]; exact hne'
        · simp only [hcur]; exact htx
      | true =>
        cases n with
        | zero => exact .inl rfl
        | succ n =>
          obtain ⟨lx', hb, hat'⟩ := hat.bump
          have hsk : Lexer.skip (x :: ts') = Lexer.skip ts' := by
            rw [Lexer.skip, List.dropWhile_cons, if_pos htx]; rfl
          rw [hsk] at hskip
          have hcur' : lx'.token.kind = k := by rw [hat'.kind]; exact hskip
          have hloop' := rootLoop_stray n ⟨lx', [.tombstone, .token lx.token.kind 1], 4⟩
            (by simp only [hcur']; exact hne') (by simp only [hcur']; exact ht)
          have hstep : callN lowLevel body (n + 1) .rootLoop ⟨lx, [.tombstone], 0⟩
              = callN lowLevel body n .rootLoop ⟨lx', [.tombstone, .token lx.token.kind 1], 4⟩ := by
            rw [← hcur] at htx
            have hneof : (lx.token.kind == Kind.EOF) = false := by
              cases hq : lx.token.kind <;> (rw [hq] at htx) <;> first | rfl | cases htx
            have hn1 : (lx.token.kind == Kind.MODULE_KW) = false := by
              cases hq : lx.token.kind <;> (rw [hq] at htx) <;> first | rfl | cases htx
            have hn2 : (lx.token.kind == Kind.SCRIPT_KW) = false := by
              cases hq : lx.token.kind <;> (rw [hq] at htx) <;> first | rfl | cases htx
            have hn3 : (lx.token.kind == Kind.ADDRESS_KW) = false := by
              cases hq : lx.token.kind <;> (rw [hq] at htx) <;> first | rfl | cases htx
            show run lowLevel (callN lowLevel body n) rootLoopBody ⟨lx, [.tombstone], 0⟩ = _
            unfold rootLoopBody
            simp only [run_at, hneof, hn1, hn2, hn3, Bool.not_false, if_true, Bool.false_eq_true,
              if_false]
            rw [if_pos (by decide), if_pos (by decide), if_pos (by decide), if_pos (by decide)]
            have hcurr : ∀ (f : Kind → Prog Unit) (s : PState),
                run lowLevel (callN lowLevel body n) (current >>= f) s
                  = run lowLevel (callN lowLevel body n) (f s.lexer.token.kind) s := fun _ _ => rfl
            rw [hcurr]
            simp only [htx, if_true]
            have hbump : ∀ (s : PState), s.lexer = lx →
                run lowLevel (callN lowLevel body n) (bumpAny >>= fun _ => call .rootLoop) s
                = callN lowLevel body n .rootLoop
                    ⟨lx', s.events ++ [.token lx.token.kind 1], s.steps⟩ := by
              intro s hs
              show run lowLevel (callN lowLevel body n)
                (Prog.bind (if s.lexer.token.kind == Kind.EOF then _ else doBump s.lexer.token.kind) _) s = _
              rw [hs, hneof]
              show Out.bind (pDoBump lx.token.kind s) _ = _
              unfold pDoBump
              rw [hs, hb]
              show Out.bind (callN lowLevel body n .rootLoop
                    ⟨lx', s.events ++ [.token lx.token.kind 1], s.steps⟩) (fun r s' => .ok r s') = _
              cases callN lowLevel body n .rootLoop
                    ⟨lx', s.events ++ [.token lx.token.kind 1], s.steps⟩ <;> rfl
            rw [hbump _ rfl]
            rfl
          rw [hstep]
          exact hloop'
  have hrun : ∀ n, parseEvents n text = .outOfFuel ∨ parseEvents n text = .panic .stuck := by
    intro n
    unfold parseEvents
    rw [hnew]
    show Out.bind (callN lowLevel body n .rootLoop ⟨lx, [.tombstone], 0⟩) _ = _ ∨
      Out.bind (callN lowLevel body n .rootLoop ⟨lx, [.tombstone], 0⟩) _ = _
    rcases hloop n with h | h <;> rw [h]
    · exact .inl rfl
    · exact .inr rfl
  have hterm := parse_terminates text
  unfold parse parseWithDepth at hterm ⊢
  rcases hrun (maxDepth text) with h | h
  · rw [h] at hterm; exact absurd rfl hterm
  · rw [h]

example : ∃ ts, Lexer.Lexes "let x".toList ts ∧
    (Lexer.significant ts).head? = some (.LET_KW, "let".toList) := by
  refine ⟨[(.LET_KW, "let".toList), (.WHITESPACE, " ".toList), (.IDENT, "x".toList)], ?_, rfl⟩
  refine .cons (u := "let".toList) (r := " x".toList) (by decide) (by rfl) ?_
  refine .cons (u := " ".toList) (r := "x".toList) (by decide) (by rfl) ?_
  exact .cons (u := "x".toList) (r := []) (by decide) (by rfl) (.nil _)

end Verif.Parser
