import Verif.Parser.ErrorNodes

set_option autoImplicit false

/-! Where the whitespace and the comments go: never first in a node, never the last child of one. -/

namespace Verif.Parser

/-- The first token of the sequence is not whitespace or a comment. -/
def FirstOk (g : Green) : Prop := ∀ x, g.leaves.head? = some x → x.1.isTrivia = false

/-- The last element of the sequence is a node, or a token that is not whitespace or a comment. -/
def LastOk : Green → Prop
  | .leaf _ k _ => k.isTrivia = false
  | _ => True

/-- So it is for the elements of each node of the sequence. -/
def Snug : Green → Prop
  | .nil => True
  | .leaf init _ _ => Snug init
  | .node init _ kids => Snug init ∧ Snug kids ∧ FirstOk kids ∧ LastOk kids

/-- The next token is not whitespace or a comment. -/
def Sink.Fresh (s : Sink) : Prop := ∀ t, s.tokens[s.tokenPos]? = some t → t.kind.isTrivia = false

/-- The elements of the open nodes, from the innermost one out; the root may start with anything. -/
def Fit : List (Kind × Green) → Green → Prop
  | [], g => Snug g
  | (_, g') :: fs, g => Snug g ∧ FirstOk g ∧ Fit fs g'

theorem Fit.snug {fs : List (Kind × Green)} {g : Green} (h : Fit fs g) : Snug g := by
  cases fs with
  | nil => exact h
  | cons f fs => exact h.1

theorem Snug.adds {c c' : Green} (h : Snug c) (ha : Adds c c') : Snug c' := by
  induction ha with
  | refl => exact h
  | leaf k t _ ih => exact ih

theorem Adds.leaves {c c' : Green} (h : Adds c c') : ∃ l, c'.leaves = c.leaves ++ l := by
  induction h with
  | refl => exact ⟨[], by simp⟩
  | leaf k t _ ih =>
    obtain ⟨l, hl⟩ := ih
    exact ⟨l ++ [(k, t)], by simp [Green.leaves, hl]⟩

theorem FirstOk.append {g g' : Green} {l : List (Kind × Text)} (h : FirstOk g) (hl : g'.leaves = g.leaves ++ l)
    (hn : g.leaves ≠ []) : FirstOk g' := by
  intro x hx
  refine h x ?_
  rw [hl] at hx
  cases hg : g.leaves with
  | nil => exact absurd hg hn
  | cons a as => rw [hg] at hx; exact hx

/-! ### The sink -/

theorem doToken_pos {s s' : Sink} {k : Kind} {len n : Nat} (h : s.doToken k len n = some s') :
    s'.tokens = s.tokens ∧ s'.tokenPos = s.tokenPos + n := by
  unfold Sink.doToken at h
  rw [Option.map_eq_some_iff] at h
  obtain ⟨t, ht, rfl⟩ := h
  exact ⟨rfl, rfl⟩

theorem eatTriviasFuel_fresh (fuel : Nat) {s s' : Sink} (hf : s.Fresh) (h : s.eatTriviasFuel fuel = some s') : s' = s := by
  cases fuel with
  | zero => cases h; rfl
  | succ n =>
    unfold Sink.eatTriviasFuel at h
    split at h
    · cases h; rfl
    · rename_i t ht
      rw [hf t ht] at h
      cases h
      rfl

theorem eatNTrivias_pos (n : Nat) {s s' : Sink} (h : Sink.eatNTrivias n s = some s') :
    s'.tokens = s.tokens ∧ s'.tokenPos = s.tokenPos + n := by
  induction n generalizing s with
  | zero => cases h; exact ⟨rfl, rfl⟩
  | succ n ih =>
    unfold Sink.eatNTrivias at h
    split at h
    · cases h
    · split at h
      · rw [Option.bind_eq_some_iff] at h
        obtain ⟨s1, h1, h2⟩ := h
        obtain ⟨a, b⟩ := doToken_pos h1
        obtain ⟨c, d⟩ := ih h2
        exact ⟨c.trans a, by omega⟩
      · cases h

theorem innerFinish_pos {s s' : Sink} (h : s.innerFinish = some s') : s'.tokens = s.tokens ∧ s'.tokenPos = s.tokenPos := by
  unfold Sink.innerFinish at h
  rw [Option.map_eq_some_iff] at h
  obtain ⟨b, _, rfl⟩ := h
  exact ⟨rfl, rfl⟩

theorem settled_pos {s s1 : Sink} (h : (match s.state with
      | .pendingStart => none
      | .pendingFinish => Sink.innerFinish { s with state := .normal }
      | .normal => some { s with state := .normal }) = some s1) :
    s1.tokens = s.tokens ∧ s1.tokenPos = s.tokenPos := by
  cases hs : s.state with
  | pendingStart => rw [hs] at h; cases h
  | pendingFinish => rw [hs] at h; have := innerFinish_pos h; exact this
  | normal => rw [hs] at h; cases h; exact ⟨rfl, rfl⟩

theorem Sink.Fresh.of_eq {s s' : Sink} (h : s.Fresh) (ht : s'.tokens = s.tokens) (hp : s'.tokenPos = s.tokenPos) :
    s'.Fresh := by
  intro t hx
  rw [ht, hp] at hx
  exact h t hx

/-- A token goes to the innermost open node, after the trivia before it; no trivia if it is the first. -/
theorem token_edge {s s' : Sink} {k : Kind} {n : Nat} (h : s.token k n = some s') :
    s'.view.1 = s.view.1 ∧ ∃ c t, s'.view.2 = .leaf c k t ∧ Adds s.view.2 c ∧ (s.Fresh → c = s.view.2) := by
  unfold Sink.token at h
  simp only [Option.bind_eq_some_iff] at h
  obtain ⟨s1, h1, s2, h2, h3⟩ := h
  obtain ⟨v1, st1, er1, p1⟩ := settled h1
  obtain ⟨q1, q2⟩ := settled_pos h1
  have m2 : More s1 s2 ∧ (s1.Fresh → s2 = s1) := by
    split at h2
    · exact ⟨more_eatTriviasFuel _ h2, fun hf => eatTriviasFuel_fresh _ hf h2⟩
    · cases h2; exact ⟨.refl _, fun _ => rfl⟩
  split at h3
  · obtain ⟨t, a1, a2, a3, a4, a5, a6⟩ := doToken_adds h3
    have hst : s'.state = .normal := by rw [a3, m2.1.state, st1]
    rw [view_normal hst, ← v1]
    refine ⟨a2.trans m2.1.parents, s2.inner.children, t, a1, m2.1.adds, fun hf => ?_⟩
    rw [m2.2 (hf.of_eq q1 q2)]
  · cases h3

/-- A node is started after the trivia, which go to the node around it. -/
theorem startNode_edge {s s' : Sink} {k : Kind} (hs : s.state ≠ .pendingStart) (h : s.startNode k = some s') :
    s'.state ≠ .pendingStart ∧ s'.Fresh ∧ ∃ c, s'.view = ((k, c) :: s.view.1, .nil) ∧ Adds s.view.2 c ∧ (s.Fresh → c = s.view.2) := by
  obtain ⟨mv, _, c0, hv0, _⟩ := startNode_view hs h
  have hgo : ∃ s1, (match s.state with
      | .pendingStart => none
      | .pendingFinish => Sink.innerFinish { s with state := .normal }
      | .normal => some { s with state := .normal }) = some s1 ∧ Sink.startNode.go k s1 = some s' := by
    unfold Sink.startNode at h
    cases hst : s.state with
    | pendingStart => exact absurd hst hs
    | pendingFinish =>
      rw [hst] at h
      simp only [Option.bind_eq_some_iff] at h
      obtain ⟨s1, h1, h2⟩ := h
      exact ⟨s1, h1, h2⟩
    | normal => rw [hst] at h; exact ⟨_, rfl, h⟩
  obtain ⟨s1, h1, h2⟩ := hgo
  obtain ⟨v1, st1, er1, p1⟩ := settled h1
  obtain ⟨q1, q2⟩ := settled_pos h1
  unfold Sink.startNode.go at h2
  split at h2
  · rw [Option.map_eq_some_iff] at h2
    obtain ⟨s2, h3, rfl⟩ := h2
    have m2 := more_eatNTrivias _ h3
    obtain ⟨r1, r2⟩ := eatNTrivias_pos _ h3
    have hst : s2.state = .normal := by rw [m2.state, st1]
    have hv : Sink.view { s2 with inner := s2.inner.startNode k } = ((k, s2.inner.children) :: s2.inner.parents, .nil) :=
      view_normal hst
    refine ⟨mv.state, ?_, s2.inner.children, ?_, ?_, ?_⟩
    · intro t ht
      change s2.tokens[s2.tokenPos]? = some t at ht
      rw [r1, r2, ← List.getElem?_drop] at ht
      exact head_after ht
    · rw [hv, m2.parents, ← v1]
    · rw [← v1]; exact m2.adds
    · intro hf
      have hf := hf.of_eq q1 q2
      have hz : ((s1.tokens.drop s1.tokenPos).takeWhile (·.kind.isTrivia)).length = 0 := by
        cases hd : s1.tokens.drop s1.tokenPos with
        | nil => rfl
        | cons a as =>
          have : s1.tokens[s1.tokenPos]? = some a := by
            have := List.getElem?_drop (xs := s1.tokens) (i := s1.tokenPos) (j := 0)
            rw [hd] at this
            simpa using this.symm
          simp [hf a this]
      rw [hz] at h3
      cases h3
      rw [← v1]
  · cases h2
where
  head_after {l : List Lexer.Token} {t : Lexer.Token}
      (h : l[(l.takeWhile (·.kind.isTrivia)).length]? = some t) : t.kind.isTrivia = false := by
    induction l with
    | nil => cases h
    | cons a as ih =>
      rw [List.takeWhile_cons] at h
      split at h
      · exact ih h
      · rename_i hn
        cases h
        simpa using hn

theorem finishNode_pos {s s' : Sink} (h : s.finishNode = some s') : s'.tokens = s.tokens ∧ s'.tokenPos = s.tokenPos := by
  unfold Sink.finishNode at h
  cases hs : s.state with
  | pendingStart => rw [hs] at h; cases h
  | pendingFinish => rw [hs] at h; have := innerFinish_pos h; exact this
  | normal => rw [hs] at h; cases h; exact ⟨rfl, rfl⟩

/-- What holds of the innermost open node between two calls, unless it is the root. -/
def Inner (fs : List (Kind × Green)) (s : Sink) : Prop :=
  fs ≠ [] → LastOk s.view.2 ∧ (s.view.2.leaves = [] → s.Fresh)

theorem walk_fit (os : List Op) (hk : ∀ k ∈ opKinds os, k.isTrivia = false) {s s' : Sink} {fs base : List (Kind × Green)}
    {d : Nat} (h : s.ops os = some s') (hs : s.state ≠ .pendingStart) (hv : s.view.1 = fs ++ base)
    (hd : depth fs.length os = some d) (fit : Fit fs s.view.2) (inn : Inner fs s) :
    ∃ fs', s'.state ≠ .pendingStart ∧ s'.view.1 = fs' ++ base ∧ fs'.length = d ∧ Fit fs' s'.view.2 := by
  induction os generalizing s fs with
  | nil =>
    cases h
    cases hd
    exact ⟨fs, hs, hv, rfl, fit⟩
  | cons o os ih =>
    simp only [Sink.ops, Option.bind_eq_some_iff] at h
    obtain ⟨s1, h1, h2⟩ := h
    cases o with
    | error m =>
      cases h1
      exact ih hk h2 hs hv hd fit inn
    | token k n =>
      have hk0 : k.isTrivia = false := hk k (by simp [opKinds])
      have hk' : ∀ k ∈ opKinds os, k.isTrivia = false := fun x hx => hk x (by
        simp only [opKinds, List.filterMap_cons]
        exact List.mem_cons_of_mem _ hx)
      have hm := (token_view h1).1.state
      obtain ⟨e1, c, t, e2, ad, fr⟩ := token_edge h1
      refine ih hk' h2 hm (e1.trans hv) hd ?_ ?_
      · rw [e2]
        have sn : Snug (.leaf c k t) := fit.snug.adds (ad.trans (.leaf k t .refl))
        cases fs with
        | nil => exact sn
        | cons f fs =>
          refine ⟨sn, ?_, fit.2.2⟩
          by_cases hl : s.view.2.leaves = []
          · have hc := fr ((inn (by simp)).2 hl)
            intro x hx
            rw [hc, Green.leaves, hl] at hx
            cases hx
            exact hk0
          · obtain ⟨l, hl'⟩ := (ad.trans (.leaf k t .refl)).leaves
            exact fit.2.1.append hl' hl
      · intro _
        rw [e2]
        exact ⟨hk0, fun hx => by simp [Green.leaves] at hx⟩
    | startNode k =>
      obtain ⟨st, fr1, c, e1, ad, fr⟩ := startNode_edge hs h1
      refine ih hk h2 st (fs := (k, c) :: fs) (by rw [e1, hv]; rfl) hd ?_ ?_
      · rw [e1]
        refine (show Snug .nil ∧ FirstOk .nil ∧ Fit fs c from ⟨trivial, fun x hx => (by cases hx), ?_⟩)
        have sn : Snug c := fit.snug.adds ad
        cases fs with
        | nil => exact sn
        | cons f fs =>
          refine ⟨sn, ?_, fit.2.2⟩
          by_cases hl : s.view.2.leaves = []
          · rw [fr ((inn (by simp)).2 hl)]
            exact fit.2.1
          · obtain ⟨l, hl'⟩ := ad.leaves
            exact fit.2.1.append hl' hl
      · intro _
        rw [e1]
        exact ⟨trivial, fun _ => fr1⟩
    | finishNode =>
      obtain ⟨mv, _, e1, _⟩ := finishNode_view h1
      obtain ⟨q1, q2⟩ := finishNode_pos h1
      cases fs with
      | nil => cases hd
      | cons f fs =>
        obtain ⟨k, g⟩ := f
        have hin := inn (by simp)
        have hv1 : s1.view = (fs ++ base, .node g k s.view.2) := by
          rw [e1]
          have : s.view = ((k, g) :: (fs ++ base), s.view.2) := Prod.ext hv rfl
          rw [this]
          rfl
        refine ih hk h2 mv.state (fs := fs) (by rw [hv1]) hd ?_ ?_
        · rw [hv1]
          have sn : Snug (.node g k s.view.2) := ⟨fit.2.2.snug, fit.1, fit.2.1, hin.1⟩
          cases fs with
          | nil => exact sn
          | cons f fs =>
            refine ⟨sn, ?_, fit.2.2.2.2⟩
            intro x hx
            rw [Green.leaves] at hx
            cases hg : g.leaves with
            | nil => rw [hg] at hx; exact fit.2.1 x hx
            | cons a as =>
              rw [hg] at hx
              refine fit.2.2.2.1 x ?_
              rw [hg]
              exact hx
        · intro _
          rw [hv1]
          refine ⟨trivial, fun hx => ?_⟩
          simp only [Green.leaves, List.append_eq_nil_iff] at hx
          exact (hin.2 hx.2).of_eq q1 q2

/-- The end of the tree: the trailing trivia go to the root. -/
theorem finish_adds {s2 sink : Sink} {k : Kind} {tree : Green} {errors : List SyntaxError} (hs : s2.state ≠ .pendingStart)
    (hv2 : s2.view.1 = [(.SOURCE_FILE, .nil)]) (hf : s2.finishNode = some sink)
    (h2 : sink.finish = some ((k, tree), errors)) : Adds s2.view.2 tree := by
  unfold Sink.finishNode at hf
  unfold Sink.view at hv2 ⊢
  cases hst : s2.state with
  | pendingStart => exact absurd hst hs
  | normal =>
    rw [hst] at hf hv2
    cases hf
    rw [if_neg (by decide)] at hv2 ⊢
    unfold Sink.finish at h2
    simp only [Option.bind_eq_some_iff, Option.map_eq_some_iff] at h2
    obtain ⟨s3, e1, s4, e2, t, e3, e4⟩ := h2
    cases e4
    have m := more_eatTriviasFuel _ e1
    obtain ⟨v4, _, er4, _⟩ := innerFinish_view e2
    have hp3 : s3.inner.parents = [(.SOURCE_FILE, .nil)] := m.parents.trans hv2
    rw [hp3] at v4
    simp only [View.close, Prod.mk.injEq] at v4
    unfold Builder.finish at e3
    rw [v4.2] at e3
    cases e3
    exact m.adds
  | pendingFinish =>
    rw [hst] at hf hv2
    rw [if_pos rfl] at hv2 ⊢
    obtain ⟨v, st, er, _⟩ := innerFinish_view hf
    simp only at v
    have hp3 : sink.inner.parents = [(.SOURCE_FILE, .nil)] := by rw [← hv2, ← v]
    unfold Sink.finish at h2
    rw [st] at h2
    simp only [Option.bind_eq_some_iff, Option.map_eq_some_iff] at h2
    obtain ⟨s3, e1, s4, e2, t, e3, e4⟩ := h2
    cases e4
    have m := more_eatTriviasFuel _ e1
    obtain ⟨v4, _, er4, _⟩ := innerFinish_view e2
    have hp4 : s3.inner.parents = [(.SOURCE_FILE, .nil)] := m.parents.trans hp3
    rw [hp4] at v4
    simp only [View.close, Prod.mk.injEq] at v4
    unfold Builder.finish at e3
    rw [v4.2] at e3
    cases e3
    have hc : sink.inner.children = (View.close (s2.inner.parents, s2.inner.children)).2 := by rw [← v]
    rw [← hc]
    exact m.adds

theorem aligned_kinds {ks : List Kind} {ts : List (Kind × Text)} (h : Aligned ks ts) : ∀ k ∈ ks, k.isTrivia = false := by
  induction h with
  | nil _ => intro k hk; cases hk
  | cons _ hk hn _ ih =>
    intro x hx
    cases hx with
    | head =>
      rcases hk with rfl | ⟨_, rfl⟩
      · exact hn
      · rfl
    | tail _ hx => exact ih x hx

theorem snug_tree {text : Text} {toks : List Lexer.Token} {kids : Forest} {ts : List (Kind × Text)} {s1 sink : Sink} {k : Kind}
    {tree : Green} {errors : List SyntaxError} (rd : Ready text toks kids ts s1)
    (h1 : (Sink.new text toks).ops (Forest.node .nil .SOURCE_FILE .nil kids).ops = some sink)
    (h2 : sink.finish = some ((k, tree), errors)) : Snug tree := by
  have hops : (Forest.node .nil .SOURCE_FILE .nil kids).ops = .startNode .SOURCE_FILE :: (kids.ops ++ [.finishNode]) := rfl
  rw [hops] at h1
  simp only [Sink.ops, Option.bind_eq_some_iff] at h1
  obtain ⟨s1', hs, hr⟩ := h1
  have : s1' = s1 := by
    have h := rd.start
    have hs : (Sink.new text toks).startNode .SOURCE_FILE = some s1' := hs
    rw [hs] at h
    cases h
    rfl
  subst this
  cases hs
  obtain ⟨s2, hk, hf⟩ := ops_append_some hr
  have hf : s2.finishNode = some sink := ops_one hf
  have hdep := depth_forest kids 0 []
  rw [List.append_nil] at hdep
  have hdep : depth 0 kids.ops = some 0 := hdep
  have hal : Aligned0 (opKinds kids.ops) ts := by
    have := rd.pending
    unfold Pending at this
    rwa [if_pos rfl] at this
  -- the first call may be for trivia before the first token
  have key : ∃ fs', s2.state ≠ .pendingStart ∧ s2.view.1 = fs' ++ [(.SOURCE_FILE, .nil)] ∧ fs'.length = 0 ∧
      Fit fs' s2.view.2 := by
    by_cases hfirst : ∃ kd n os, kids.ops = .token kd n :: os
    · obtain ⟨kd, n, os, ho⟩ := hfirst
      rw [ho] at hk hdep hal
      simp only [Sink.ops, Option.bind_eq_some_iff] at hk
      obtain ⟨s3, h3, h4⟩ := hk
      rw [show ∀ s : Sink, s.op (.token kd n) = s.token kd n from fun _ => rfl] at h3
      have hm := (token_view h3).1.state
      obtain ⟨e1, c, t, e2, ad, _⟩ := token_edge h3
      refine walk_fit os ?_ h4 hm (fs := []) (base := [(.SOURCE_FILE, .nil)]) (by rw [e1]; rfl) hdep ?_
        (fun hx => absurd rfl hx)
      · cases hal with
        | cons _ ha => exact aligned_kinds ha
      · rw [e2]
        exact Snug.adds (c := .nil) trivial (Adds.trans ad (.leaf kd t .refl))
    · refine walk_fit kids.ops ?_ hk (by intro h; cases h) (fs := []) (base := [(.SOURCE_FILE, .nil)]) rfl hdep trivial
        (fun hx => absurd rfl hx)
      generalize hks : opKinds kids.ops = ks at hal
      cases hal with
      | nil => intro k hk; cases hk
      | @cons kd k u ks post hkf ha =>
        have hn : k.isTrivia = false := by
          cases ht : k.isTrivia with
          | false => rfl
          | true =>
            exfalso
            cases hko : kids.ops with
            | nil => rw [hko] at hks; cases hks
            | cons o os =>
              obtain ⟨kd', n, rfl⟩ := rd.starts rfl (k, u) rfl ht o (by rw [hko]; rfl)
              exact hfirst ⟨kd', n, os, hko⟩
        exact aligned_kinds (ts := [] ++ (k, u) :: post) (.cons (by simp) hkf hn ha)
  obtain ⟨fs', st, hv, hl, fit⟩ := key
  have := List.length_eq_zero_iff.1 hl
  subst this
  exact fit.snug.adds (finish_adds st hv hf h2)

/-- The tree of a file. -/
theorem parse_snug {text : Text} {kind : Kind} {tree : Green} {errors : List SyntaxError}
    (h : parse text = .ok kind tree errors) : Snug tree := by
  unfold parse parseWithDepth at h
  split at h
  · cases h
  · cases h
  · rename_i u l hev
    unfold parseEvents at hev
    split at hev
    · cases hev
    · rename_i lx hnew
      have hg := root_good hnew (maxDepth text) (Nat.le_refl _)
      have he := run_erases (M := highLevel) (cb := callB highLevel body (maxDepth text))
        (c := callN highLevel body (maxDepth text))
        (fun f s => callB_erases highLevel body (maxDepth text) (maxDepth text) (Nat.le_refl _) f s) root
        (HState.initial lx, maxDepth text)
      have hlow := highLevel_agree.run (callN_agree highLevel_agree body (maxDepth text)) root (HState.initial lx)
        (PState.initial lx) ⟨rfl, rfl, rfl, rfl, trivial, trivial⟩
      generalize run (budgeted highLevel) (callB highLevel body (maxDepth text)) root
        (HState.initial lx, maxDepth text) = ob at hg he
      rcases he with rfl | he
      · exact absurd hg id
      · simp only at he
        rw [he] at hlow
        cases ob with
        | ok a st =>
          obtain ⟨hh, b⟩ := st
          obtain ⟨l', e3, rep⟩ := hlow
          have fin : Finished text hh := hg
          obtain ⟨kids, hi⟩ := fin.tree
          have : l' = l := by
            have := e3.symm.trans hev
            cases this
            rfl
          subst this
          have hev' : l'.events = (Forest.node .nil .SOURCE_FILE .nil kids).ev none := by
            rw [rep.events, fin.outer, hi]; rfl
          have hwf : (Forest.node .nil .SOURCE_FILE .nil kids).Wf := by
            have := rep.wf
            rwa [hi] at this
          obtain ⟨ts, s1, _, rd⟩ := sink_ready fin rep hi
          rw [hev', process_forest _ hwf] at h
          simp only at h
          split at h
          · cases h
          · rename_i sink hsink
            split at h
            · cases h
            · rename_i k' t' er' hfin
              split at h
              · cases h
                exact snug_tree rd hsink hfin
              · cases h
        | panic w =>
          have e3 : run lowLevel (callN lowLevel body (maxDepth text)) root (PState.initial lx) = .panic w := by
            rcases hg with rfl | rfl | rfl <;> exact hlow
          have := e3.symm.trans hev
          cases this
        | outOfFuel => exact absurd hg id

end Verif.Parser
