import Verif.Parser.Spec
import Verif.Parser.Process
import Verif.Lexer.Props

set_option autoImplicit false

/-!
The tree sink driven by a walk over a forest: it never panics, attaches every token exactly once
and in order, and reports errors at token boundaries.
-/

namespace Verif.Parser

/-- A token as the lexer records it. -/
def tk (t : Kind × Text) : Lexer.Token := ⟨t.1, byteLen t.2⟩

/-- The kind of an event for a token of kind `k`. -/
abbrev KindFor (kd k : Kind) : Prop := kd = k ∨ (k = .INTEGER_NUMBER ∧ kd = .DIEM_ADDRESS)

/-- `Bumped` read from the front, after the first token. -/
inductive Aligned : List Kind → List (Kind × Text) → Prop
  | nil {t : List (Kind × Text)} : (∀ x ∈ t, x.1.isTrivia = true) → Aligned [] t
  | cons {kd k : Kind} {u : Text} {ks : List Kind} {t post : List (Kind × Text)} :
    (∀ x ∈ t, x.1.isTrivia = true) → KindFor kd k → k.isTrivia = false → Aligned ks post →
    Aligned (kd :: ks) (t ++ (k, u) :: post)

theorem Aligned.snoc {ks : List Kind} {done triv : List (Kind × Text)} {kd k : Kind} {u : Text}
    (h : Aligned ks done) (hk : KindFor kd k) (hn : k.isTrivia = false)
    (ht : ∀ x ∈ triv, x.1.isTrivia = true) : Aligned (ks ++ [kd]) (done ++ (k, u) :: triv) := by
  induction h with
  | nil h0 => exact .cons h0 hk hn (.nil ht)
  | @cons kd' k' u' _ _ _ h1 h2 h3 _ ih =>
    have := Aligned.cons (u := u') h1 h2 h3 ih
    simpa using this

/-- Before the first token. -/
inductive Aligned0 : List Kind → List (Kind × Text) → Prop
  | nil : Aligned0 [] []
  | cons {kd k : Kind} {u : Text} {ks : List Kind} {post : List (Kind × Text)} :
    KindFor kd k → Aligned ks post → Aligned0 (kd :: ks) ((k, u) :: post)

theorem Bumped.aligned {ks : List Kind} {done : List (Kind × Text)} (h : Bumped ks done) :
    Aligned0 ks done := by
  induction h with
  | nil => exact .nil
  | @snoc ks done triv kd k u hb hk hd ht ih =>
    cases ih with
    | nil => exact .cons hk (.nil ht)
    | cons h1 h2 =>
      rcases hd with hd | hd
      · cases hd
      · exact .cons h1 (h2.snoc hk hd ht)

theorem Aligned.dropTrivia {ks : List Kind} {post : List (Kind × Text)} (h : Aligned ks post) :
    ∃ t post', post = t ++ post' ∧ (∀ x ∈ t, x.1.isTrivia = true) ∧
      (∀ x, post'.head? = some x → x.1.isTrivia = false) ∧ Aligned ks post' := by
  cases h with
  | nil h0 => exact ⟨_, [], (List.append_nil _).symm, h0, (fun x hx => by cases hx), .nil (by simp)⟩
  | @cons kd k u ks t post h1 h2 h3 h4 =>
    refine ⟨t, (k, u) :: post, rfl, h1, ?_, ?_⟩
    · intro x hx; cases hx; exact h3
    · exact Aligned.cons (t := []) (by simp) h2 h3 h4

/-- Leaves and node kinds of an unfinished tree. -/
def stackLeaves : List (Kind × Green) → List (Kind × Text)
  | [] => []
  | (_, g) :: rest => stackLeaves rest ++ g.leaves

def stackKinds : List (Kind × Green) → List Kind
  | [] => []
  | (k, g) :: rest => stackKinds rest ++ (g.nodeKinds ++ [k])

def Builder.leaves (b : Builder) : List (Kind × Text) := stackLeaves b.parents ++ b.children.leaves

def Builder.kinds (b : Builder) : List Kind := stackKinds b.parents ++ b.children.nodeKinds

/-- The open nodes, when a finish that is still pending is counted as done. -/
def Sink.opens (s : Sink) : List (Kind × Green) :=
  match s.state with
  | .pendingFinish => s.inner.parents.tail
  | _ => s.inner.parents

/-- Invariant of the sink: `pre` are the tokens attached, `post` those still to come. -/
structure SInv (s : Sink) (pre post : List (Kind × Text)) : Prop where
  tokens : s.tokens = (pre ++ post).map tk ++ [⟨.EOF, 0⟩]
  text : s.text = ((pre ++ post).map Prod.snd).flatten
  tokenPos : s.tokenPos = pre.length
  textPos : s.textPos = byteLen (pre.map Prod.snd).flatten
  leaves : SameTokens s.inner.leaves pre
  kinds : ∀ k ∈ s.inner.kinds, isNodeKind k = true
  errs : s.errors.Pairwise fun a b => a.offset ≤ b.offset
  bound : ∀ e ∈ s.errors, e.offset ≤ s.textPos ∧ AtBoundary pre e.offset
  state : s.state = .pendingFinish → s.inner.parents ≠ []

theorem AtBoundary.append {ts : List (Kind × Text)} {n : Nat} (h : AtBoundary ts n)
    (us : List (Kind × Text)) : AtBoundary (ts ++ us) n := by
  obtain ⟨a, b, rfl, h⟩ := h
  exact ⟨a, b ++ us, by simp, h⟩

theorem doToken_inv {s : Sink} {pre post : List (Kind × Text)} {k kd : Kind} {u : Text}
    (h : SInv s pre ((k, u) :: post)) (hk : KindFor kd k) :
    ∃ s', s.doToken kd (byteLen u) 1 = some s' ∧ SInv s' (pre ++ [(k, u)]) post ∧
      s'.state = s.state ∧ s'.inner.parents = s.inner.parents := by
  have hslice : Lexer.sliceRange s.text s.textPos (s.textPos + byteLen u) = some u := by
    rw [h.text, h.textPos]
    simp only [List.map_append, List.map_cons, List.flatten_append, List.flatten_cons]
    exact Lexer.sliceRange_mid _ _ _
  refine ⟨⟨s.text, s.tokens, s.textPos + byteLen u, s.tokenPos + 1, s.state, s.inner.token kd u,
    s.errors⟩, by unfold Sink.doToken; rw [hslice]; rfl, ?_, rfl, rfl⟩
  refine ⟨?_, ?_, ?_, ?_, ?_, ?_, h.errs, ?_, h.state⟩
  · simpa using h.tokens
  · simpa using h.text
  · simp [h.tokenPos]
  · simp [h.textPos, byteLen_append]
  · have h1 : ∀ b : Builder, (b.token kd u).leaves = b.leaves ++ [(kd, u)] := by
      intro b
      simp [Builder.token, Builder.leaves, Green.leaves]
    rw [h1]
    exact .snoc h.leaves hk
  · exact h.kinds
  · intro e he
    obtain ⟨h1, h2⟩ := h.bound e he
    refine ⟨?_, h2.append _⟩
    simp only
    omega

theorem SInv.tokenAt {s : Sink} {pre post : List (Kind × Text)} {x : Kind × Text}
    (h : SInv s pre (x :: post)) : s.tokens[s.tokenPos]? = some (tk x) := by
  rw [h.tokens, h.tokenPos]
  simp only [List.map_append, List.map_cons, List.append_assoc, List.cons_append]
  rw [List.getElem?_append_right (by simp)]
  simp

theorem SInv.tokenAtEnd {s : Sink} {pre : List (Kind × Text)}
    (h : SInv s pre []) : s.tokens[s.tokenPos]? = some ⟨.EOF, 0⟩ := by
  rw [h.tokens, h.tokenPos]
  simp only [List.append_nil]
  rw [List.getElem?_append_right (by simp)]
  simp

/-- What an operation that only attaches tokens leaves alone. -/
structure Same (s s' : Sink) : Prop where
  state : s'.state = s.state
  parents : s'.inner.parents = s.inner.parents

theorem eatNTrivias_inv (t : List (Kind × Text)) {s : Sink} {pre post : List (Kind × Text)}
    (h : SInv s pre (t ++ post)) (ht : ∀ x ∈ t, x.1.isTrivia = true) :
    ∃ s', Sink.eatNTrivias t.length s = some s' ∧ SInv s' (pre ++ t) post ∧ Same s s' := by
  induction t generalizing s pre with
  | nil => exact ⟨s, rfl, by simpa using h, rfl, rfl⟩
  | cons x t ih =>
    obtain ⟨k, u⟩ := x
    obtain ⟨s1, h1, h2, h3, h4⟩ := doToken_inv (kd := k) h (.inl rfl)
    obtain ⟨s2, h5, h6, h7, h8⟩ := ih h2 (fun x hx => ht x (List.mem_cons_of_mem _ hx))
    refine ⟨s2, ?_, by simpa using h6, h7.trans h3, h8.trans h4⟩
    rw [List.length_cons, Sink.eatNTrivias, h.tokenAt]
    have hk : k.isTrivia = true := ht (k, u) (List.mem_cons_self ..)
    simp only [tk, hk, ↓reduceIte, h1, Option.bind_some, h5]

theorem eatTriviasFuel_inv (t : List (Kind × Text)) (fuel : Nat) {s : Sink}
    {pre post : List (Kind × Text)} (h : SInv s pre (t ++ post))
    (ht : ∀ x ∈ t, x.1.isTrivia = true) (hp : ∀ x, post.head? = some x → x.1.isTrivia = false)
    (hf : t.length ≤ fuel) :
    ∃ s', Sink.eatTriviasFuel fuel s = some s' ∧ SInv s' (pre ++ t) post ∧ Same s s' := by
  induction t generalizing s pre fuel with
  | nil =>
    refine ⟨s, ?_, by simpa using h, rfl, rfl⟩
    cases fuel with
    | zero => rfl
    | succ fuel =>
      unfold Sink.eatTriviasFuel
      cases post with
      | nil => rw [SInv.tokenAtEnd h]; rfl
      | cons x post =>
        rw [SInv.tokenAt h]
        have := hp x rfl
        simp [tk, this]
  | cons x t ih =>
    obtain ⟨k, u⟩ := x
    cases fuel with
    | zero => simp at hf
    | succ fuel =>
      obtain ⟨s1, h1, h2, h3, h4⟩ := doToken_inv (kd := k) h (.inl rfl)
      obtain ⟨s2, h5, h6, h7, h8⟩ := ih fuel h2 (fun x hx => ht x (List.mem_cons_of_mem _ hx))
        (by simp at hf; omega)
      refine ⟨s2, ?_, by simpa using h6, h7.trans h3, h8.trans h4⟩
      rw [Sink.eatTriviasFuel, h.tokenAt]
      have hk : k.isTrivia = true := ht (k, u) (List.mem_cons_self ..)
      simp only [tk, hk, h1, Option.bind_some, h5]
      rfl

theorem eatTrivias_inv (t : List (Kind × Text)) {s : Sink}
    {pre post : List (Kind × Text)} (h : SInv s pre (t ++ post))
    (ht : ∀ x ∈ t, x.1.isTrivia = true) (hp : ∀ x, post.head? = some x → x.1.isTrivia = false) :
    ∃ s', s.eatTrivias = some s' ∧ SInv s' (pre ++ t) post ∧ Same s s' := by
  refine eatTriviasFuel_inv t _ h ht hp ?_
  rw [h.tokens]
  simp
  omega

/-- Carrying out a pending finish. -/
theorem flush_inv {s : Sink} {pre post : List (Kind × Text)} (h : SInv s pre post)
    (hs : s.state = .pendingFinish) :
    ∃ s', Sink.innerFinish { s with state := .normal } = some s' ∧ SInv s' pre post ∧
      s'.state = .normal ∧ s'.inner.parents = s.opens := by
  have hne := h.state hs
  cases hp : s.inner.parents with
  | nil => exact absurd hp hne
  | cons p rest =>
    obtain ⟨k, g⟩ := p
    refine ⟨_, by unfold Sink.innerFinish Builder.finishNode; simp only [hp]; rfl, ?_, rfl, ?_⟩
    · refine ⟨h.tokens, h.text, h.tokenPos, h.textPos, ?_, ?_, h.errs, h.bound, fun hh => by cases hh⟩
      · have := h.leaves
        simp only [Builder.leaves, hp, stackLeaves] at this
        simpa [Builder.leaves, Green.leaves] using this
      · intro x hx
        refine h.kinds x ?_
        simp only [Builder.kinds, hp, stackKinds]
        simpa [Builder.kinds, Green.nodeKinds] using hx
    · simp [Sink.opens, hs, hp]

/-- The sink ready for an operation: no finish is pending. -/
theorem settle_inv {s : Sink} {pre post : List (Kind × Text)} (h : SInv s pre post)
    (hs : s.state ≠ .pendingStart) :
    ∃ s', (match s.state with
        | .pendingStart => none
        | .pendingFinish => Sink.innerFinish { s with state := .normal }
        | .normal => some { s with state := .normal }) = some s' ∧ SInv s' pre post ∧
      s'.state = .normal ∧ s'.inner.parents = s.opens := by
  cases hst : s.state with
  | pendingStart => exact absurd hst hs
  | pendingFinish =>
    obtain ⟨s', h1, h2, h3, h4⟩ := flush_inv h hst
    exact ⟨s', h1, h2, h3, h4⟩
  | normal =>
    refine ⟨_, rfl, ⟨h.tokens, h.text, h.tokenPos, h.textPos, h.leaves, h.kinds, h.errs, h.bound,
      fun hh => by cases hh⟩, rfl, by simp [Sink.opens, hst]⟩

theorem token_inv {s : Sink} {pre t post : List (Kind × Text)} {k kd : Kind} {u : Text}
    (h : SInv s pre (t ++ (k, u) :: post)) (hs : s.state ≠ .pendingStart)
    (ht : ∀ x ∈ t, x.1.isTrivia = true) (hk : KindFor kd k)
    (hn : pre ≠ [] → k.isTrivia = false) (h0 : pre = [] → t = []) :
    ∃ s', s.token kd 1 = some s' ∧ SInv s' (pre ++ t ++ [(k, u)]) post ∧
      s'.state ≠ .pendingStart ∧ s'.opens = s.opens := by
  obtain ⟨s1, e1, i1, n1, p1⟩ := settle_inv h hs
  have h2 : ∃ s2, (if s1.tokenPos ≠ 0 then s1.eatTrivias else some s1) = some s2 ∧
      SInv s2 (pre ++ t) ((k, u) :: post) ∧ Same s1 s2 := by
    by_cases hpre : pre = []
    · have := h0 hpre
      subst hpre this
      rw [if_neg (by simp [i1.tokenPos])]
      exact ⟨s1, rfl, by simpa using i1, rfl, rfl⟩
    · rw [if_pos (by rw [i1.tokenPos]; simpa using hpre)]
      exact eatTrivias_inv t i1 ht (fun x hx => by cases hx; exact hn hpre)
  obtain ⟨s2, e2, i2, sm2⟩ := h2
  obtain ⟨s3, e3, i3, n3, p3⟩ := doToken_inv (kd := kd) i2 hk
  refine ⟨s3, ?_, i3, by rw [n3, sm2.state, n1]; decide, ?_⟩
  · have htok : s.token kd 1 = (if s1.tokenPos ≠ 0 then s1.eatTrivias else some s1).bind fun s2 =>
        if s2.tokenPos + 1 ≤ s2.tokens.length then
          s2.doToken kd (((s2.tokens.drop s2.tokenPos).take 1).map Lexer.Token.len).sum 1
        else none := by
      unfold Sink.token
      cases hst : s.state with
      | pendingStart => exact absurd hst hs
      | pendingFinish =>
        rw [hst] at e1
        simp only at e1 ⊢
        rw [e1]
        rfl
      | normal =>
        rw [hst] at e1
        simp only at e1 ⊢
        rw [e1]
        rfl
    rw [htok, e2]
    simp only [Option.bind_some]
    have hlen : s2.tokenPos + 1 ≤ s2.tokens.length := by
      rw [i2.tokenPos, i2.tokens]
      simp only [List.length_append, List.length_map, List.length_cons, List.length_nil]
      omega
    rw [if_pos hlen]
    have hdrop : (s2.tokens.drop s2.tokenPos).take 1 = [tk (k, u)] := by
      have hat := i2.tokenAt
      rw [List.getElem?_eq_some_iff] at hat
      obtain ⟨hlt, hat⟩ := hat
      rw [List.drop_eq_getElem_cons hlt, hat]
      rfl
    rw [hdrop]
    simpa [tk] using e3
  · have h1 : s3.state = .normal := by rw [n3, sm2.state, n1]
    show (match s3.state with | .pendingFinish => _ | _ => _) = _
    rw [h1]
    simp only
    rw [p3, sm2.parents, p1]

theorem startNode_inv {s : Sink} {pre t post : List (Kind × Text)} {kind : Kind}
    (h : SInv s pre (t ++ post)) (hs : s.state ≠ .pendingStart)
    (ht : ∀ x ∈ t, x.1.isTrivia = true) (hp : ∀ x, post.head? = some x → x.1.isTrivia = false)
    (hk : isNodeKind kind = true) :
    ∃ s' g, s.startNode kind = some s' ∧ SInv s' (pre ++ t) post ∧ s'.state = .normal ∧
      s'.opens = (kind, g) :: s.opens := by
  obtain ⟨s1, e1, i1, n1, p1⟩ := settle_inv h hs
  obtain ⟨s2, e2, i2, sm⟩ := eatNTrivias_inv t i1 ht
  have hgo : Sink.startNode.go kind s1 = some { s2 with inner := s2.inner.startNode kind } := by
    unfold Sink.startNode.go
    have hle : s1.tokenPos ≤ s1.tokens.length := by
      rw [i1.tokenPos, i1.tokens]; simp
    rw [if_pos hle]
    have hn : ((s1.tokens.drop s1.tokenPos).takeWhile (·.kind.isTrivia)).length = t.length := by
      rw [i1.tokens, i1.tokenPos]
      simp only [List.map_append, List.append_assoc]
      rw [List.drop_append]
      simp only [List.length_map, Nat.sub_self, List.drop_zero]
      rw [List.drop_eq_nil_of_le (by simp)]
      rw [List.nil_append, List.takeWhile_append_of_pos]
      · have : ((post.map tk ++ [⟨.EOF, 0⟩] : List Lexer.Token).takeWhile (·.kind.isTrivia)) = [] := by
          cases post with
          | nil => rfl
          | cons x post =>
            have := hp x rfl
            simp [tk, this]
        rw [this]
        simp
      · intro a ha
        rw [List.mem_map] at ha
        obtain ⟨x, hx, rfl⟩ := ha
        exact ht x hx
    simp only [hn, e2]
    rfl
  refine ⟨{ s2 with inner := s2.inner.startNode kind }, s2.inner.children, ?_, ?_, ?_, ?_⟩
  · unfold Sink.startNode
    cases hst : s.state with
    | pendingStart => exact absurd hst hs
    | pendingFinish =>
      rw [hst] at e1
      simp only at e1 ⊢
      rw [e1]
      exact hgo
    | normal =>
      rw [hst] at e1
      simp only at e1 ⊢
      cases e1
      exact hgo
  · refine ⟨i2.tokens, i2.text, i2.tokenPos, i2.textPos, ?_, ?_, i2.errs, i2.bound, ?_⟩
    · have := i2.leaves
      simpa [Builder.leaves, Builder.startNode, stackLeaves, Green.leaves] using this
    · intro x hx
      have h1 := i2.kinds
      simp only [Builder.kinds, Builder.startNode, stackKinds, Green.nodeKinds, List.append_nil,
        ← List.append_assoc, List.mem_append, List.mem_singleton] at hx
      rcases hx with hx | rfl
      · exact h1 x (by simpa [Builder.kinds] using hx)
      · exact hk
    · intro hh
      simp only [sm.state, n1] at hh
      cases hh
  · simp only [sm.state, n1]
  · have hst : s2.state = .normal := by rw [sm.state, n1]
    simp only [Sink.opens, hst, Builder.startNode]
    rw [sm.parents, p1]
    rfl

theorem finishNode_inv {s : Sink} {pre post : List (Kind × Text)} {p : Kind × Green}
    {rest : List (Kind × Green)} (h : SInv s pre post) (hs : s.state ≠ .pendingStart)
    (ho : s.opens = p :: rest) :
    ∃ s', s.finishNode = some s' ∧ SInv s' pre post ∧ s'.state = .pendingFinish ∧
      s'.opens = rest ∧ s'.inner.parents = p :: rest := by
  unfold Sink.finishNode
  cases hst : s.state with
  | pendingStart => exact absurd hst hs
  | normal =>
    have hp : s.inner.parents = p :: rest := by rw [← ho]; simp [Sink.opens, hst]
    refine ⟨_, rfl, ⟨h.tokens, h.text, h.tokenPos, h.textPos, h.leaves, h.kinds, h.errs, h.bound,
      fun _ => by simp [hp]⟩, rfl, by simp [Sink.opens, hp], hp⟩
  | pendingFinish =>
    obtain ⟨s', h1, h2, h3, h4⟩ := flush_inv h hst
    have hrel : Sink.innerFinish { s with state := .pendingFinish }
        = some { s' with state := .pendingFinish } := by
      unfold Sink.innerFinish at h1 ⊢
      simp only at h1 ⊢
      cases hf : s.inner.finishNode with
      | none => rw [hf] at h1; cases h1
      | some b => rw [hf] at h1; cases h1; rfl
    have hp : s'.inner.parents = p :: rest := by rw [h4, ho]
    refine ⟨_, hrel, ⟨h2.tokens, h2.text, h2.tokenPos, h2.textPos, h2.leaves, h2.kinds, h2.errs,
      h2.bound, fun _ => by simp [hp]⟩, rfl, by simp [Sink.opens, hp], hp⟩

theorem error_inv {s : Sink} {pre post : List (Kind × Text)} (h : SInv s pre post) (msg : String) :
    SInv (s.error msg) pre post ∧ (s.error msg).state = s.state ∧ (s.error msg).opens = s.opens := by
  refine ⟨⟨h.tokens, h.text, h.tokenPos, h.textPos, h.leaves, h.kinds, ?_, ?_, h.state⟩, rfl, rfl⟩
  · simp only [Sink.error]
    rw [List.pairwise_append]
    refine ⟨h.errs, by simp, ?_⟩
    intro a ha b hb
    rw [List.mem_singleton] at hb
    subst hb
    exact (h.bound a ha).1
  · intro e he
    simp only [Sink.error, List.mem_append, List.mem_singleton] at he
    rcases he with he | rfl
    · exact h.bound e he
    · exact ⟨Nat.le_refl _, pre, [], by simp, h.textPos⟩

end Verif.Parser
