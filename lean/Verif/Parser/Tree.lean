import Verif.Parser.Walk

set_option autoImplicit false

/-! From a finished run of the grammar to the syntax tree. -/

namespace Verif.Parser

/-- A tree and its errors, as they should be for a text with the tokens `ts`. -/
structure TreeOk (ts : List (Kind × Text)) (tree : Green) (errors : List SyntaxError) : Prop where
  leaves : SameTokens tree.leaves ts
  kinds : ∀ k ∈ tree.nodeKinds, isNodeKind k = true
  errs : errors.Pairwise fun a b => a.offset ≤ b.offset
  bound : ∀ e ∈ errors, AtBoundary ts e.offset

theorem finish_inv {s : Sink} {pre post : List (Kind × Text)} (inv : SInv s pre post)
    (hs : s.state = .pendingFinish) (hp : s.inner.parents = [(.SOURCE_FILE, .nil)])
    (hpend : Pending pre [] post) :
    ∃ tree errors, s.finish = some ((.SOURCE_FILE, tree), errors) ∧ TreeOk (pre ++ post) tree errors := by
  have hall : ∀ x ∈ post, x.1.isTrivia = true := by
    unfold Pending at hpend
    split at hpend
    · cases hpend; intro x hx; cases hx
    · cases hpend; assumption
  have inv0 : SInv { s with state := .normal } pre post :=
    ⟨inv.tokens, inv.text, inv.tokenPos, inv.textPos, inv.leaves, inv.kinds, inv.errs, inv.bound,
      fun hh => by cases hh⟩
  obtain ⟨s1, e1, i1, sm⟩ := eatTrivias_inv post (post := []) (by simpa using inv0) hall
    (fun x hx => by cases hx)
  have hp1 : s1.inner.parents = [(.SOURCE_FILE, .nil)] := by rw [sm.parents]; exact hp
  refine ⟨s1.inner.children, s1.errors, ?_, ?_⟩
  · unfold Sink.finish
    simp only [hs, e1, Option.bind_some]
    have : s1.innerFinish = some { s1 with inner := ⟨[], .node .nil .SOURCE_FILE s1.inner.children⟩ } := by
      unfold Sink.innerFinish Builder.finishNode
      simp only [hp1]
      rfl
    rw [this]
    rfl
  · refine ⟨?_, ?_, i1.errs, fun e he => (i1.bound e he).2⟩
    · have := i1.leaves
      simpa [Builder.leaves, hp1, stackLeaves, Green.leaves] using this
    · intro k hk
      refine i1.kinds k ?_
      simp only [Builder.kinds, List.mem_append]
      exact .inr hk

theorem Finished.tokens {text : Text} {h : HState} (fin : Finished text h) :
    ∃ ts, Lexer.Lexes text ts ∧ h.lexer.allTokens = ts.map tk ++ [⟨.EOF, 0⟩] ∧
      Bumped (tokKinds h.events) ts ∧ ∀ x, ts.head? = some x → x.1.isTrivia = true → Lead h.events := by
  obtain ⟨done, rest, hv, hb, _, hl⟩ := fin.inv.lex
  have hr : rest = [] := (Lexer.findToken_eof_iff hv.cur).1 fin.eof
  subst hr
  refine ⟨done, ?_, ?_, hb, hl⟩
  · have := hv.steps
    rw [fin.inv.text] at this
    exact this
  · rw [hv.all]
    have hcur := Lexer.findToken_nil hv.cur
    congr 2
    cases htok : h.lexer.token with
    | mk k n => rw [htok] at hcur; simp only at hcur; rw [hcur.1, hcur.2]

theorem head?_append_ne {α : Type} (a b : List α) : (a ++ b).head? = if a = [] then b.head? else a.head? := by
  cases a <;> simp

theorem head_token (F : Forest) (hw : F.Wf) {k : Kind} (h : (F.ev none).head? = some (.token k 1)) :
    F.ops.head? = some (.token k 1) := by
  have hnil : ∀ i : Forest, i.ev none = [] → i = .nil := by
    intro i hi
    have := Forest.ev_length none i
    rw [hi] at this
    cases i <;> simp only [Forest.len, List.length_nil] at this <;> first | rfl | omega
  have hops : ∀ {i : Forest} {x : Op}, i.ops.head? = some x → ∀ os, (i.ops ++ os).head? = some x := by
    intro i x hi os
    cases hl : i.ops with
    | nil => rw [hl] at hi; cases hi
    | cons a as => rw [hl] at hi; exact hi
  induction F with
  | nil => cases h
  | tok i k' ih =>
    simp only [Forest.ev, head?_append_ne] at h
    split at h
    · rename_i hi
      have := hnil i hi
      subst this
      cases h
      rfl
    · exact hops (ih hw h) _
  | err i m ih =>
    simp only [Forest.ev, head?_append_ne] at h
    split at h
    · cases h
    · exact hops (ih hw h) _
  | tomb i ih =>
    simp only [Forest.ev, head?_append_ne] at h
    split at h
    · cases h
    · exact ih hw h
  | node i k' pre kids ih1 ih2 ih3 =>
    rw [ev_node i k' pre kids hw, head?_append_ne] at h
    split at h
    · simp only [Forest.spine] at h
      cases hsp : pre.spine ++ [(k', kids)] with
      | nil => simp at hsp
      | cons x xs =>
        rw [hsp] at h
        obtain ⟨a, b⟩ := x
        cases h
    · exact hops (ih1 hw.1 h) _

/-- After the start of the root node, before the calls for what is in it. -/
structure Ready (text : Text) (toks : List Lexer.Token) (kids : Forest) (ts : List (Kind × Text)) (s : Sink) :
    Prop where
  start : (Sink.new text toks).startNode .SOURCE_FILE = some s
  inv : SInv s [] ts
  pending : Pending [] (opKinds kids.ops) ts
  starts : Starts [] ts kids.ops
  state : s.state = .normal
  opens : s.opens = [(.SOURCE_FILE, .nil)]
  errors : s.errors = []

theorem sink_ready {text : Text} {h : HState} {l : PState} (fin : Finished text h) (rep : Rep h l) {kids : Forest}
    (htree : h.items = .node .nil .SOURCE_FILE .nil kids) :
    ∃ ts s, Lexer.Lexes text ts ∧ Ready text l.lexer.allTokens kids ts s := by
  have hev : l.events = (Forest.node .nil .SOURCE_FILE .nil kids).ev none := by
    rw [rep.events, fin.outer, htree]; rfl
  have hwf : (Forest.node .nil .SOURCE_FILE .nil kids).Wf := by rw [← htree]; exact rep.wf
  have hkw : kids.Wf := hwf.2.2.2.2
  obtain ⟨ts, hlex, htok, hbump, hlead⟩ := fin.tokens
  have hops : (Forest.node .nil .SOURCE_FILE .nil kids).ops
      = .startNode .SOURCE_FILE :: (kids.ops ++ [.finishNode]) := rfl
  let s1 : Sink := ⟨text, ts.map tk ++ [⟨.EOF, 0⟩], 0, 0, .normal, ⟨[(.SOURCE_FILE, .nil)], .nil⟩, []⟩
  have hevs : h.events = l.events := by rw [rep.events]; rfl
  refine ⟨ts, s1, hlex, ?_, ?_, ?_, ?_, rfl, rfl, rfl⟩
  · rw [rep.lexer, htok]
    rfl
  · refine ⟨rfl, ?_, rfl, rfl, .nil, ?_, .nil, (fun e he => by cases he), fun hh => by cases hh⟩
    · have := hlex.text
      simpa using this
    · intro k hk
      simp only [s1, Builder.kinds, stackKinds, Green.nodeKinds, List.nil_append, List.append_nil,
        List.mem_singleton] at hk
      subst hk
      rfl
  · unfold Pending
    rw [if_pos rfl]
    have h1 := hbump.aligned
    rw [hevs, hev, ← opKinds_ev _ none, hops] at h1
    have h2 : opKinds (.startNode .SOURCE_FILE :: (kids.ops ++ [.finishNode])) = opKinds kids.ops := by
      show opKinds (kids.ops ++ [.finishNode]) = _
      rw [opKinds_append]
      exact List.append_nil _
    rw [h2] at h1
    exact h1
  · intro _ x hx hx1 o ho
    obtain ⟨i, k, hi, he⟩ := hlead x hx hx1
    rw [hevs, hev] at he
    have hev' : (Forest.node .nil .SOURCE_FILE .nil kids).ev none
        = .start .SOURCE_FILE none :: (kids.ev none ++ [.finish]) := rfl
    rw [hev'] at he
    have hi1 : i = 1 := by
      rcases Nat.eq_or_lt_of_le hi with h | h
      · exact h
      · have : i = 0 := by omega
        subst this
        cases he
    subst hi1
    have hk : (kids.ev none).head? = some (.token k 1) := by
      cases hke : kids.ev none with
      | nil => rw [hke] at he; cases he
      | cons e es =>
        rw [hke] at he
        exact he
    rw [head_token kids hkw hk] at ho
    cases ho
    exact ⟨k, 1, rfl⟩

/-- A finished run gives a tree: replaying its events never panics, and the tree is as it should
be. -/
theorem build_tree {text : Text} {h : HState} {l : PState} (fin : Finished text h) (rep : Rep h l) :
    ∃ ops sink tree errors ts, process l.events = some ops ∧ Balanced ops ∧
      (Sink.new text l.lexer.allTokens).ops ops = some sink ∧
      sink.finish = some ((.SOURCE_FILE, tree), errors) ∧ Lexer.Lexes text ts ∧ TreeOk ts tree errors := by
  obtain ⟨kids, htree⟩ := fin.tree
  have hev : l.events = (Forest.node .nil .SOURCE_FILE .nil kids).ev none := by
    rw [rep.events, fin.outer, htree]; rfl
  have hwf : (Forest.node .nil .SOURCE_FILE .nil kids).Wf := by rw [← htree]; exact rep.wf
  have hkw : kids.Wf := hwf.2.2.2.2
  have hops : (Forest.node .nil .SOURCE_FILE .nil kids).ops
      = .startNode .SOURCE_FILE :: (kids.ops ++ [.finishNode]) := rfl
  obtain ⟨ts, s1, hlex, rd⟩ := sink_ready fin rep htree
  obtain ⟨s2, pre, post, ext, e2, i2, hsplit, p2, n2, o2, d2⟩ :=
    walk kids.ops [] (opOk_forest kids hkw) (ext := []) (base := [(.SOURCE_FILE, .nil)]) (d := 0) rd.inv
      (by rw [List.append_nil]; exact rd.pending) (by rw [rd.state]; decide) rd.starts rd.opens (by
        have := depth_forest kids 0 []
        rw [List.append_nil] at this
        exact this)
  have hext : ext = [] := List.length_eq_zero_iff.1 d2
  subst hext
  obtain ⟨s3, e3, i3, n3, o3, q3⟩ := finishNode_inv i2 n2 o2
  obtain ⟨tree, errors, e4, hok⟩ := finish_inv i3 n3 q3 p2
  refine ⟨_, s3, tree, errors, ts, ?_, balanced_forest (.node .nil .SOURCE_FILE .nil kids), ?_, e4, hlex, ?_⟩
  · rw [hev]; exact process_forest _ hwf
  · rw [hops]
    simp only [Sink.ops, Sink.op, rd.start, Option.bind_some, ops_append, e2, e3]
  · rw [hsplit] at hok
    exact hok

end Verif.Parser
