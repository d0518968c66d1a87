import Verif.Parser.Reformat

set_option autoImplicit false

/-!
C107: what names are chosen and what stands in literals and comments changes neither the syntax tree nor the errors.
-/

namespace Verif.Parser

open Kind Lexer

/-! ### Specification -/

/-- The same kinds of tokens, with other texts; numbers are hexadecimal in both or in neither. -/
inductive Renamed : List (Kind × Text) → List (Kind × Text) → Prop where
  | nil : Renamed [] []
  | cons {k : Kind} {t t' : Text} {r r' : List (Kind × Text)} :
      (k = INTEGER_NUMBER → ((∃ w, t = '0' :: 'x' :: w) ↔ ∃ w, t' = '0' :: 'x' :: w)) → Renamed r r' →
      Renamed ((k, t) :: r) ((k, t') :: r')

/-- The tree without the texts of its leaves. -/
def Green.frame : Green → Green
  | .nil => .nil
  | .leaf init k _ => .leaf init.frame k []
  | .node init k kids => .node init.frame k kids.frame

/-- The error with the message `m` in front of the token number `m.2`. -/
def errorAt (ts : List (Kind × Text)) (m : String × Nat) : SyntaxError :=
  ⟨m.1, byteLen ((ts.take m.2).map Prod.snd).flatten⟩

/-- The outcomes are the same but for the texts of the leaves: the same tree, and the same messages in front of the same
tokens; or the same panic. -/
def SameButTexts (ts ts' : List (Kind × Text)) : Parsed → Parsed → Prop
  | .ok k tree errors, o => ∃ tree' errors', o = .ok k tree' errors' ∧ tree'.frame = tree.frame ∧
      ∃ marks : List (String × Nat), errors = marks.map (errorAt ts) ∧ errors' = marks.map (errorAt ts')
  | .panic w, o => o = .panic w
  | .outOfFuel, _ => False

/-! ### The grammar -/

theorem startsWith_hex (t : Text) : startsWith t "0x" = true ↔ ∃ w, t = '0' :: 'x' :: w := by
  unfold startsWith
  rw [List.isPrefixOf_iff_prefix]
  constructor
  · rintro ⟨w, rfl⟩; exact ⟨w, rfl⟩
  · rintro ⟨w, rfl⟩; exact ⟨w, rfl⟩

theorem Renamed.head {ts ts' : List (Kind × Text)} (h : Renamed ts ts') : headKind ts = headKind ts' := by
  cases h <;> rfl

theorem Renamed.dropWhile {ts ts' : List (Kind × Text)} (h : Renamed ts ts') :
    Renamed (ts.dropWhile (·.1 == WHITESPACE)) (ts'.dropWhile (·.1 == WHITESPACE)) := by
  induction h with
  | nil => exact .nil
  | cons ht h ih =>
    rename_i k _ _ _ _
    rw [List.dropWhile_cons, List.dropWhile_cons]
    cases hk : k == WHITESPACE with
    | true => exact ih
    | false => exact .cons ht h

theorem Renamed.drop {ts ts' : List (Kind × Text)} (h : Renamed ts ts') : Renamed (ts.drop 1) (ts'.drop 1) := by
  cases h with
  | nil => exact .nil
  | cons _ h => exact h

theorem Renamed.tok {k : Kind} {t t' : Text} {r r' : List (Kind × Text)}
    (ht : k = INTEGER_NUMBER → ((∃ w, t = '0' :: 'x' :: w) ↔ ∃ w, t' = '0' :: 'x' :: w)) (h : Renamed r r') :
    TokAlike (Tok.of (k, t) r) (Tok.of (k, t') r') := by
  have e1 : (Tok.of (k, t) r).la1 = (Tok.of (k, t') r').la1 := h.dropWhile.head
  have e2 : (Tok.of (k, t) r).la2 = (Tok.of (k, t') r').la2 := h.drop.head
  refine ⟨rfl, fun hk => ?_, fun _ => by rw [e1], fun _ => by rw [e1], fun _ => by rw [e2]⟩
  rw [Bool.eq_iff_iff, startsWith_hex, startsWith_hex]
  exact ht hk

theorem Renamed.sig {ts ts' : List (Kind × Text)} (h : Renamed ts ts') :
    ToksAlike (annotSig ts) (annotSig ts') ∧ kind1 (annotSig ts) = kind1 (annotSig ts') := by
  induction h with
  | nil => exact ⟨.nil, rfl⟩
  | cons ht h ih =>
    rename_i k t t' r r'
    unfold annotSig
    cases hk : k.isTrivia with
    | true => simpa using ih
    | false =>
      simp only [Bool.false_eq_true, if_false]
      exact ⟨.cons (Renamed.tok ht h) (fun _ => by rw [ih.2]) ih.1, h.dropWhile.head⟩

theorem Renamed.annot {ts ts' : List (Kind × Text)} (h : Renamed ts ts') :
    ToksAlike (Parser.annot ts) (Parser.annot ts') := by
  cases h with
  | nil => exact .nil
  | cons ht h => exact .cons (Renamed.tok ht h) (fun _ => by rw [h.sig.2]) h.sig.1

/-! ### The sink -/

/-- The parser does what the machine on tokens does, and builds the tree from that. -/
theorem parse_replayed {text : Text} {ts : List (Kind × Text)} (hl : Lexes text ts) {n : Nat}
    (hn : maxDepth text ≤ n) {s : TState}
    (hr : run tokenLevel (callN tokenLevel body n) root ⟨Parser.annot ts, 0, 0, .nil, []⟩ = .ok () s) :
    ∃ sink kind tree errors, (Sink.new text (ts.map tk ++ [⟨.EOF, 0⟩])).ops s.items.ops = some sink ∧
      sink.finish = some ((kind, tree), errors) ∧ parse text = .ok kind tree errors := by
  obtain ⟨lx, hnew, hst⟩ := Stands.new hl
  have hg := root_good hnew n hn
  have he := run_erases (M := highLevel) (cb := callB highLevel body n) (c := callN highLevel body n)
    (fun f s => callB_erases highLevel body n n (Nat.le_refl _) f s) root
    (HState.initial lx, maxDepth text)
  have ha := tokenLevel_agree.run (callN_agree tokenLevel_agree body n) root (HState.initial lx)
    ⟨Parser.annot ts, 0, 0, .nil, []⟩ ⟨⟨ts, hst, rfl⟩, rfl, rfl, rfl, rfl⟩
  have hlow := highLevel_agree.run (callN_agree highLevel_agree body n) root (HState.initial lx)
    (PState.initial lx) ⟨rfl, rfl, rfl, rfl, trivial, trivial⟩
  rw [hr] at ha
  generalize run (budgeted highLevel) (callB highLevel body n) root
    (HState.initial lx, maxDepth text) = ob at hg he
  rcases he with rfl | he
  · exact absurd hg id
  · simp only at he
    rw [he] at ha hlow
    cases ob with
    | ok a s' =>
      obtain ⟨h, b⟩ := s'
      obtain ⟨s2, e2, trep⟩ := ha
      cases e2
      obtain ⟨l, e3, rep⟩ := hlow
      have fin : Finished text h := hg
      obtain ⟨kids, hi⟩ := fin.tree
      obtain ⟨ops, sink, tree, errors, ts', h1, h2, h3, h4, h5, h6⟩ := build_tree fin rep
      obtain ⟨ts'', hl'', htok, _⟩ := fin.tokens
      cases hl.unique hl''
      have hev : l.events = (Forest.node .nil .SOURCE_FILE .nil kids).ev none := by
        rw [rep.events, fin.outer, hi]; rfl
      have hwf : (Forest.node .nil .SOURCE_FILE .nil kids).Wf := by
        have := rep.wf
        rwa [hi] at this
      rw [hev, process_forest _ hwf] at h1
      cases h1
      refine ⟨sink, .SOURCE_FILE, tree, errors, ?_, h4, ?_⟩
      · rw [trep.items, hi, ← htok, ← rep.lexer]
        exact h3
      · rw [← parse_depth text n hn]
        have e4 : parseEvents n text = .ok () l := by
          unfold parseEvents
          rw [hnew]
          exact e3
        unfold parseWithDepth
        rw [e4]
        simp only [hev, process_forest _ hwf, h3, h4]
        rfl
    | panic w =>
      have : (Out.ok () s : Out TState Unit) = .panic w := by
        rcases hg with rfl | rfl | rfl <;> exact ha
      cases this
    | outOfFuel => exact absurd hg id

/-- Two builders whose trees differ in texts only. -/
def BuildAlike (b b' : Builder) : Prop :=
  b.children.frame = b'.children.frame ∧
    b.parents.map (fun p => (p.1, p.2.frame)) = b'.parents.map (fun p => (p.1, p.2.frame))

/-- The sum of the lengths of the first tokens. -/
def posOf (toks : List Token) (i : Nat) : Nat := ((toks.take i).map Token.len).sum

/-- Two sinks that differ in texts and lengths only. -/
structure Twin (s s' : Sink) : Prop where
  kinds : s.tokens.map Token.kind = s'.tokens.map Token.kind
  pos : s.tokenPos = s'.tokenPos
  state : s.state = s'.state
  text : s.textPos = posOf s.tokens s.tokenPos
  text' : s'.textPos = posOf s'.tokens s'.tokenPos
  inner : BuildAlike s.inner s'.inner
  errors : ∃ marks : List (String × Nat), s.errors = marks.map (fun m => ⟨m.1, posOf s.tokens m.2⟩) ∧
    s'.errors = marks.map (fun m => ⟨m.1, posOf s'.tokens m.2⟩)

/-- Twins with the same lists of tokens as before. -/
def TwinOf (s s' r r' : Sink) : Prop := Twin r r' ∧ r.tokens = s.tokens ∧ r'.tokens = s'.tokens

theorem posOf_add (toks : List Token) (i n : Nat) :
    posOf toks (i + n) = posOf toks i + (((toks.drop i).take n).map Token.len).sum := by
  unfold posOf
  rw [List.take_add, List.map_append, List.sum_append]

theorem Twin.length {s s' : Sink} (h : Twin s s') : s.tokens.length = s'.tokens.length := by
  have := congrArg List.length h.kinds
  simpa using this

theorem Twin.kindAt {s s' : Sink} (h : Twin s s') (i : Nat) :
    (s.tokens[i]?).map Token.kind = (s'.tokens[i]?).map Token.kind := by
  rw [← List.getElem?_map, ← List.getElem?_map, h.kinds]

theorem Twin.doToken {s s' r r' : Sink} (h : Twin s s') (kind : Kind) (n : Nat) {len len' : Nat}
    (hl : len = (((s.tokens.drop s.tokenPos).take n).map Token.len).sum)
    (hl' : len' = (((s'.tokens.drop s'.tokenPos).take n).map Token.len).sum)
    (e : s.doToken kind len n = some r) (e' : s'.doToken kind len' n = some r') : TwinOf s s' r r' := by
  unfold Sink.doToken at e e'
  obtain ⟨t, _, rfl⟩ := Option.map_eq_some_iff.1 e
  obtain ⟨t', _, rfl⟩ := Option.map_eq_some_iff.1 e'
  refine ⟨⟨h.kinds, by simp only [h.pos], h.state, ?_, ?_, ?_, h.errors⟩, rfl, rfl⟩
  · simp only [posOf_add, h.text, hl]
  · simp only [posOf_add, h.text', hl']
  · refine ⟨?_, h.inner.2⟩
    simp only [Builder.token, Green.frame, h.inner.1]

theorem one_token {toks : List Token} {i : Nat} {t : Token} (h : toks[i]? = some t) :
    t.len = (((toks.drop i).take 1).map Token.len).sum := by
  obtain ⟨hi, rfl⟩ := List.getElem?_eq_some_iff.1 h
  rw [List.drop_eq_getElem_cons hi]
  show _ = toks[i].len + 0
  rw [Nat.add_zero]

theorem Twin.eatFuel {s s' : Sink} (n : Nat) (h : Twin s s') {r r' : Sink}
    (e : s.eatTriviasFuel n = some r) (e' : s'.eatTriviasFuel n = some r') : TwinOf s s' r r' := by
  induction n generalizing s s' with
  | zero => cases e; cases e'; exact ⟨h, rfl, rfl⟩
  | succ n ih =>
    unfold Sink.eatTriviasFuel at e e'
    have hk := h.kindAt s.tokenPos
    rw [h.pos] at e hk
    cases g : s.tokens[s'.tokenPos]? with
    | none =>
      rw [g] at e hk
      cases g' : s'.tokens[s'.tokenPos]? with
      | none => rw [g'] at e'; cases e; cases e'; exact ⟨h, rfl, rfl⟩
      | some t' => rw [g'] at hk; cases hk
    | some t =>
      rw [g] at e hk
      cases g' : s'.tokens[s'.tokenPos]? with
      | none => rw [g'] at hk; cases hk
      | some t' =>
        rw [g'] at e' hk
        have hk : t.kind = t'.kind := Option.some.inj hk
        simp only [← hk] at e'
        simp only at e
        by_cases ht : (!t.kind.isTrivia) = true
        · rw [if_pos ht] at e e'
          cases e; cases e'; exact ⟨h, rfl, rfl⟩
        · rw [if_neg ht] at e e'
          obtain ⟨q, e1, e2⟩ := Option.bind_eq_some_iff.1 e
          obtain ⟨q', e1', e2'⟩ := Option.bind_eq_some_iff.1 e'
          obtain ⟨hq, f, f'⟩ := h.doToken t.kind 1 (one_token (h.pos ▸ g)) (one_token g') e1 e1'
          obtain ⟨hr, u, u'⟩ := ih hq e2 e2'
          exact ⟨hr, u.trans f, u'.trans f'⟩

theorem Twin.eat {s s' r r' : Sink} (h : Twin s s') (e : s.eatTrivias = some r) (e' : s'.eatTrivias = some r') :
    TwinOf s s' r r' := by
  unfold Sink.eatTrivias at e e'
  rw [← h.length] at e'
  exact h.eatFuel _ e e'

theorem Twin.eatN {s s' : Sink} (n : Nat) (h : Twin s s') {r r' : Sink}
    (e : Sink.eatNTrivias n s = some r) (e' : Sink.eatNTrivias n s' = some r') : TwinOf s s' r r' := by
  induction n generalizing s s' with
  | zero => cases e; cases e'; exact ⟨h, rfl, rfl⟩
  | succ n ih =>
    unfold Sink.eatNTrivias at e e'
    have hk := h.kindAt s.tokenPos
    rw [h.pos] at e hk
    cases g : s.tokens[s'.tokenPos]? with
    | none => rw [g] at e; cases e
    | some t =>
      rw [g] at e hk
      cases g' : s'.tokens[s'.tokenPos]? with
      | none => rw [g'] at hk; cases hk
      | some t' =>
        rw [g'] at e' hk
        have hk : t.kind = t'.kind := Option.some.inj hk
        simp only [← hk] at e'
        simp only at e
        by_cases ht : t.kind.isTrivia = true
        · rw [if_pos ht] at e e'
          obtain ⟨q, e1, e2⟩ := Option.bind_eq_some_iff.1 e
          obtain ⟨q', e1', e2'⟩ := Option.bind_eq_some_iff.1 e'
          obtain ⟨hq, f, f'⟩ := h.doToken t.kind 1 (one_token (h.pos ▸ g)) (one_token g') e1 e1'
          obtain ⟨hr, u, u'⟩ := ih hq e2 e2'
          exact ⟨hr, u.trans f, u'.trans f'⟩
        · rw [if_neg ht] at e; cases e

theorem Twin.setState {s s' : Sink} (h : Twin s s') (st : SinkState) : Twin { s with state := st } { s' with state := st } :=
  ⟨h.kinds, h.pos, rfl, h.text, h.text', h.inner, h.errors⟩

theorem BuildAlike.finishNode {b b' r r' : Builder} (h : BuildAlike b b') (e : b.finishNode = some r)
    (e' : b'.finishNode = some r') : BuildAlike r r' := by
  unfold Builder.finishNode at e e'
  obtain ⟨h1, h2⟩ := h
  cases hp : b.parents with
  | nil => rw [hp] at e; cases e
  | cons p ps =>
    cases hp' : b'.parents with
    | nil => rw [hp'] at e'; cases e'
    | cons p' ps' =>
      rw [hp] at e h2
      rw [hp'] at e' h2
      cases e; cases e'
      simp only [List.map_cons, List.cons.injEq, Prod.mk.injEq] at h2
      refine ⟨?_, h2.2⟩
      simp only [Green.frame, h2.1.1, h2.1.2, h1]

theorem BuildAlike.startNode {b b' : Builder} (h : BuildAlike b b') (kind : Kind) :
    BuildAlike (b.startNode kind) (b'.startNode kind) := by
  refine ⟨rfl, ?_⟩
  simp only [Builder.startNode, List.map_cons, h.1, h.2]

theorem Twin.innerFinish {s s' r r' : Sink} (h : Twin s s') (e : s.innerFinish = some r) (e' : s'.innerFinish = some r') :
    TwinOf s s' r r' := by
  unfold Sink.innerFinish at e e'
  obtain ⟨b, g, rfl⟩ := Option.map_eq_some_iff.1 e
  obtain ⟨b', g', rfl⟩ := Option.map_eq_some_iff.1 e'
  exact ⟨⟨h.kinds, h.pos, h.state, h.text, h.text', h.inner.finishNode g g', h.errors⟩, rfl, rfl⟩

theorem Twin.startInner {s s' : Sink} (h : Twin s s') (kind : Kind) :
    Twin { s with inner := s.inner.startNode kind } { s' with inner := s'.inner.startNode kind } :=
  ⟨h.kinds, h.pos, h.state, h.text, h.text', h.inner.startNode kind, h.errors⟩

theorem takeWhile_kinds (p : Kind → Bool) (l l' : List Token) (h : l.map Token.kind = l'.map Token.kind) :
    (l.takeWhile (p ·.kind)).length = (l'.takeWhile (p ·.kind)).length := by
  induction l generalizing l' with
  | nil =>
    cases l' with
    | nil => rfl
    | cons _ _ => cases h
  | cons a l ih =>
    cases l' with
    | nil => cases h
    | cons a' l' =>
      simp only [List.map_cons, List.cons.injEq] at h
      simp only [List.takeWhile_cons, h.1]
      split
      · simp [ih l' h.2]
      · rfl

theorem Twin.go {s s' r r' : Sink} (h : Twin s s') (kind : Kind) (e : Sink.startNode.go kind s = some r)
    (e' : Sink.startNode.go kind s' = some r') : TwinOf s s' r r' := by
  unfold Sink.startNode.go at e e'
  split at e
  · split at e'
    · simp only at e e'
      have hn : ((s.tokens.drop s.tokenPos).takeWhile (·.kind.isTrivia)).length =
          ((s'.tokens.drop s'.tokenPos).takeWhile (·.kind.isTrivia)).length := by
        refine takeWhile_kinds _ _ _ ?_
        rw [List.map_drop, List.map_drop, h.kinds, h.pos]
      rw [← hn] at e'
      obtain ⟨q, g, rfl⟩ := Option.map_eq_some_iff.1 e
      obtain ⟨q', g', rfl⟩ := Option.map_eq_some_iff.1 e'
      obtain ⟨hq, f, f'⟩ := h.eatN _ g g'
      exact ⟨hq.startInner kind, f, f'⟩
    · cases e'
  · cases e

theorem Twin.op {s s' r r' : Sink} (h : Twin s s') (o : Op) (e : s.op o = some r) (e' : s'.op o = some r') :
    TwinOf s s' r r' := by
  have hst := h.state
  cases o with
  | startNode kind =>
    simp only [Sink.op, Sink.startNode] at e e'
    rw [← hst] at e'
    cases hs : s.state with
    | pendingStart =>
      rw [hs] at e e'
      cases e; cases e'
      exact ⟨(h.setState .normal).startInner kind, rfl, rfl⟩
    | pendingFinish =>
      rw [hs] at e e'
      obtain ⟨q, g, e⟩ := Option.bind_eq_some_iff.1 e
      obtain ⟨q', g', e'⟩ := Option.bind_eq_some_iff.1 e'
      obtain ⟨hq, f, f'⟩ := (h.setState .normal).innerFinish g g'
      obtain ⟨hr, u, u'⟩ := hq.go kind e e'
      exact ⟨hr, u.trans f, u'.trans f'⟩
    | normal =>
      rw [hs] at e e'
      exact (h.setState .normal).go kind e e'
  | finishNode =>
    simp only [Sink.op, Sink.finishNode] at e e'
    rw [← hst] at e'
    cases hs : s.state with
    | pendingStart => rw [hs] at e; cases e
    | pendingFinish =>
      rw [hs] at e e'
      exact (h.setState .pendingFinish).innerFinish e e'
    | normal =>
      rw [hs] at e e'
      cases e; cases e'
      exact ⟨h.setState .pendingFinish, rfl, rfl⟩
  | token kind n =>
    simp only [Sink.op, Sink.token] at e e'
    obtain ⟨a, ga, e⟩ := Option.bind_eq_some_iff.1 e
    obtain ⟨a', ga', e'⟩ := Option.bind_eq_some_iff.1 e'
    obtain ⟨b, gb, e⟩ := Option.bind_eq_some_iff.1 e
    obtain ⟨b', gb', e'⟩ := Option.bind_eq_some_iff.1 e'
    have ha : TwinOf s s' a a' := by
      rw [← hst] at ga'
      cases hs : s.state with
      | pendingStart => rw [hs] at ga; cases ga
      | pendingFinish =>
        rw [hs] at ga ga'
        exact (h.setState .normal).innerFinish ga ga'
      | normal =>
        rw [hs] at ga ga'
        cases ga; cases ga'
        exact ⟨h.setState .normal, rfl, rfl⟩
    obtain ⟨ha, fa, fa'⟩ := ha
    have hb : TwinOf a a' b b' := by
      rw [← ha.pos] at gb'
      split at gb
      · rename_i h0
        rw [if_pos h0] at gb'
        exact ha.eat gb gb'
      · rename_i h0
        rw [if_neg h0] at gb'
        cases gb; cases gb'
        exact ⟨ha, rfl, rfl⟩
    obtain ⟨hb, fb, fb'⟩ := hb
    split at e
    · split at e'
      · obtain ⟨hr, u, u'⟩ := hb.doToken kind n rfl rfl e e'
        exact ⟨hr, u.trans (fb.trans fa), u'.trans (fb'.trans fa')⟩
      · cases e'
    · cases e
  | error msg =>
    cases e; cases e'
    obtain ⟨marks, m1, m2⟩ := h.errors
    refine ⟨⟨h.kinds, h.pos, h.state, h.text, h.text', h.inner, marks ++ [(msg, s.tokenPos)], ?_, ?_⟩, rfl, rfl⟩
    · simp only [Sink.error, m1, List.map_append, List.map_cons, List.map_nil, h.text]
    · simp only [Sink.error, m2, List.map_append, List.map_cons, List.map_nil, h.text', h.pos]

theorem Twin.ops {s s' r r' : Sink} (h : Twin s s') (os : List Op) (e : s.ops os = some r) (e' : s'.ops os = some r') :
    TwinOf s s' r r' := by
  induction os generalizing s s' with
  | nil => cases e; cases e'; exact ⟨h, rfl, rfl⟩
  | cons o os ih =>
    obtain ⟨q, g, e⟩ := Option.bind_eq_some_iff.1 e
    obtain ⟨q', g', e'⟩ := Option.bind_eq_some_iff.1 e'
    obtain ⟨hq, f, f'⟩ := h.op o g g'
    obtain ⟨hr, u, u'⟩ := ih hq e e'
    exact ⟨hr, u.trans f, u'.trans f'⟩

theorem Twin.finish {s s' : Sink} (h : Twin s s') {k k' : Kind} {tree tree' : Green} {errors errors' : List SyntaxError}
    (e : s.finish = some ((k, tree), errors)) (e' : s'.finish = some ((k', tree'), errors')) :
    k' = k ∧ tree'.frame = tree.frame ∧ ∃ marks : List (String × Nat),
      errors = marks.map (fun m => ⟨m.1, posOf s.tokens m.2⟩) ∧ errors' = marks.map (fun m => ⟨m.1, posOf s'.tokens m.2⟩) := by
  unfold Sink.finish at e e'
  simp only at e e'
  rw [← h.state] at e'
  cases hs : s.state with
  | pendingStart => rw [hs] at e; cases e
  | normal => rw [hs] at e; cases e
  | pendingFinish =>
    rw [hs] at e e'
    obtain ⟨a, ga, e⟩ := Option.bind_eq_some_iff.1 e
    obtain ⟨a', ga', e'⟩ := Option.bind_eq_some_iff.1 e'
    obtain ⟨b, gb, e⟩ := Option.bind_eq_some_iff.1 e
    obtain ⟨b', gb', e'⟩ := Option.bind_eq_some_iff.1 e'
    obtain ⟨x, gx, e⟩ := Option.map_eq_some_iff.1 e
    obtain ⟨x', gx', e'⟩ := Option.map_eq_some_iff.1 e'
    cases e; cases e'
    obtain ⟨ha, fa, fa'⟩ := (h.setState .normal).eat ga ga'
    obtain ⟨hb, fb, fb'⟩ := ha.innerFinish gb gb'
    have hx : k' = k ∧ tree'.frame = tree.frame := by
      have hc := hb.inner.1
      unfold Builder.finish at gx gx'
      split at gx
      · rename_i kids hk
        split at gx'
        · rename_i kids' hk'
          rw [hk, hk'] at hc
          simp only [Green.frame, Green.node.injEq, true_and] at hc
          cases gx; cases gx'
          exact ⟨hc.1.symm, hc.2.symm⟩
        · cases gx'
      · cases gx
    obtain ⟨marks, m1, m2⟩ := hb.errors
    refine ⟨hx.1, hx.2, marks, ?_, ?_⟩
    · rw [fb, fa] at m1; exact m1
    · rw [fb', fa'] at m2; exact m2

theorem posOf_tokens (ts : List (Kind × Text)) (i : Nat) :
    posOf (ts.map tk ++ [⟨.EOF, 0⟩]) i = byteLen ((ts.take i).map Prod.snd).flatten := by
  unfold posOf
  induction ts generalizing i with
  | nil =>
    cases i with
    | zero => rfl
    | succ i => cases i <;> rfl
  | cons t ts ih =>
    cases i with
    | zero => rfl
    | succ i =>
      have := ih i
      simp only [List.map_cons, List.cons_append, List.take_succ_cons, List.sum_cons, List.flatten_cons, byteLen_append,
        tk, this]

/-! ### C107 -/

/-- **C107.**  Two texts with the same kinds of tokens: other names, other literals, other comments, other lengths of
white space.  They have the same syntax tree, up to the texts of its leaves, and the same errors in front of the same
tokens; if the parser panics on one, it panics on the other.  (Whether a number is hexadecimal is the one thing the
parser looks at.) -/
theorem parse_renamed {text text' : Text} {ts ts' : List (Kind × Text)} (h : Lexes text ts) (h' : Lexes text' ts')
    (hr : Renamed ts ts') : SameButTexts ts ts' (parse text) (parse text') := by
  have f1 := parse_follows h (n := maxDepth text + maxDepth text') (Nat.le_add_right _ _)
  have f2 := parse_follows h' (n := maxDepth text + maxDepth text') (Nat.le_add_left _ _)
  have p1 := @parse_replayed text ts h (maxDepth text + maxDepth text') (Nat.le_add_right _ _)
  have p2 := @parse_replayed text' ts' h' (maxDepth text + maxDepth text') (Nat.le_add_left _ _)
  have key := run_root_alike hr.annot (maxDepth text + maxDepth text')
  generalize run tokenLevel (callN tokenLevel body (maxDepth text + maxDepth text')) root
    ⟨Parser.annot ts, 0, 0, .nil, []⟩ = o at f1 p1 key
  generalize run tokenLevel (callN tokenLevel body (maxDepth text + maxDepth text')) root
    ⟨Parser.annot ts', 0, 0, .nil, []⟩ = o' at f2 p2 key
  cases o with
  | ok a s =>
    cases o' with
    | ok a' s' =>
      obtain ⟨sink, k, tree, errors, g1, g2, g3⟩ := p1 rfl
      obtain ⟨sink', k', tree', errors', g1', g2', g3'⟩ := p2 rfl
      rw [← key.2.items] at g1'
      have hk : (ts.map tk ++ [(⟨.EOF, 0⟩ : Token)]).map Token.kind = (ts'.map tk ++ [(⟨.EOF, 0⟩ : Token)]).map Token.kind := by
        simp only [List.map_append, List.map_map]
        congr 1
        clear h h' f1 f2 p1 p2 key g1 g2 g3 g1' g2' g3'
        induction hr with
        | nil => rfl
        | cons _ _ ih => simp only [List.map_cons, ih]; rfl
      have tw : Twin (Sink.new text (ts.map tk ++ [⟨.EOF, 0⟩])) (Sink.new text' (ts'.map tk ++ [⟨.EOF, 0⟩])) :=
        ⟨hk, rfl, rfl, rfl, rfl, ⟨rfl, rfl⟩, [], rfl, rfl⟩
      obtain ⟨tw', e, e'⟩ := tw.ops _ g1 g1'
      obtain ⟨rfl, hf, marks, m1, m2⟩ := tw'.finish g2 g2'
      rw [g3, g3']
      refine ⟨tree', errors', rfl, hf, marks, ?_, ?_⟩
      · rw [m1, e]
        refine List.map_congr_left fun m _ => ?_
        rw [errorAt, ← posOf_tokens]; rfl
      · rw [m2, e']
        refine List.map_congr_left fun m _ => ?_
        rw [errorAt, ← posOf_tokens]; rfl
    | panic w => exact absurd key id
    | outOfFuel => exact absurd key id
  | panic w =>
    cases o' with
    | ok a' s' => exact absurd key id
    | panic w' =>
      have f1 : parse text = .panic w := f1
      have f2 : parse text' = .panic w' := f2
      have key : w = w' := key
      rw [f1, f2, key]
      rfl
    | outOfFuel => exact absurd key id
  | outOfFuel => exact absurd f1 id

/-- A text with an error and another one with other names, literals and comments. -/
example : ∃ ts ts', Lexes "script { fun f() { a + 0x1; struct } // c\n}".toList ts ∧
    Lexes "script  { fun gg() { bcd + 0xff; struct } // other\n}".toList ts' ∧ Renamed ts ts' ∧
    errorsOf "script { fun f() { a + 0x1; struct } // c\n}".toList = 
      some [⟨"expected expression", 28⟩, ⟨"expected R_BRACE", 43⟩, ⟨"expected R_BRACE", 43⟩] := by
  refine ⟨[(.SCRIPT_KW, "script".toList), (.WHITESPACE, " ".toList), (.L_BRACE, "{".toList), (.WHITESPACE, " ".toList),
      (.FUN_KW, "fun".toList), (.WHITESPACE, " ".toList), (.IDENT, "f".toList), (.L_PAREN, "(".toList),
      (.R_PAREN, ")".toList), (.WHITESPACE, " ".toList), (.L_BRACE, "{".toList), (.WHITESPACE, " ".toList),
      (.IDENT, "a".toList), (.WHITESPACE, " ".toList), (.PLUS, "+".toList), (.WHITESPACE, " ".toList),
      (.INTEGER_NUMBER, "0x1".toList), (.SEMICOLON, ";".toList), (.WHITESPACE, " ".toList),
      (.STRUCT_KW, "struct".toList), (.WHITESPACE, " ".toList), (.R_BRACE, "}".toList), (.WHITESPACE, " ".toList),
      (.COMMENT, "// c\n".toList), (.R_BRACE, "}".toList)],
    [(.SCRIPT_KW, "script".toList), (.WHITESPACE, "  ".toList), (.L_BRACE, "{".toList), (.WHITESPACE, " ".toList),
      (.FUN_KW, "fun".toList), (.WHITESPACE, " ".toList), (.IDENT, "gg".toList), (.L_PAREN, "(".toList),
      (.R_PAREN, ")".toList), (.WHITESPACE, " ".toList), (.L_BRACE, "{".toList), (.WHITESPACE, " ".toList),
      (.IDENT, "bcd".toList), (.WHITESPACE, " ".toList), (.PLUS, "+".toList), (.WHITESPACE, " ".toList),
      (.INTEGER_NUMBER, "0xff".toList), (.SEMICOLON, ";".toList), (.WHITESPACE, " ".toList),
      (.STRUCT_KW, "struct".toList), (.WHITESPACE, " ".toList), (.R_BRACE, "}".toList), (.WHITESPACE, " ".toList),
      (.COMMENT, "// other\n".toList), (.R_BRACE, "}".toList)],
    lexes_of_check (by decide +kernel), lexes_of_check (by decide +kernel), ?_, by decide +kernel⟩
  repeat' (first
    | exact .nil
    | refine .cons (fun _ => ⟨fun _ => ⟨_, rfl⟩, fun _ => ⟨_, rfl⟩⟩) ?_
    | refine .cons (fun h => nomatch h) ?_)

/-- The exception is necessary: only a hexadecimal number is an address. -/
theorem hexadecimal_matters :
    errorsOf "script { fun f() { @0x1; } }".toList = some [] ∧
    errorsOf "script { fun f() { @1; } }".toList ≠ some [] := by
  constructor <;> decide +kernel

end Verif.Parser
