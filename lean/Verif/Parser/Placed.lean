import Verif.Parser.StableProps
import Verif.Parser.Rename

set_option autoImplicit false

/-!
C58, with the positions of the errors: reformatting moves every error along with the tokens.
-/

namespace Verif.Parser

open Kind Lexer

namespace Layout

/-- The tokens the parser reads, with the trivia behind each.  Trivia at the start of a text are read like a token. -/
def pieces : List (Kind × Text) → List Laid → List Laid
  | [], ps => ps
  | a :: l, ps => ⟨a, l⟩ :: ps

/-- What stands in front of a place: the place behind the first `j` tokens, either right behind the last of them
(`false`), or behind its trivia as well (`true`). -/
def standing (ps : List Laid) : Nat → Bool → List (Kind × Text)
  | j, true => flat (ps.take j)
  | 0, false => []
  | i + 1, false => flat (ps.take i) ++ (ps[i]?.map Laid.tok).toList

/-- The byte offset of that place. -/
def spot (ps : List Laid) (j : Nat) (b : Bool) : Nat := byteLen ((standing ps j b).map Prod.snd).flatten

end Layout

open Layout

/-- The messages among the calls on the sink, and where the sink stands when they are made: behind how many tokens, and
whether it has read the trivia behind the last of them. -/
def marks : Nat → Bool → List Op → List (String × Nat × Bool)
  | _, _, [] => []
  | j, _, .token _ _ :: os => marks (j + 1) false os
  | j, _, .startNode _ :: os => marks j true os
  | j, b, .finishNode :: os => marks j b os
  | j, b, .error m :: os => (m, j, b) :: marks j b os

/-- The sink has attached `pre`, and `post` is left. -/
inductive Stand (ps : List Laid) : Nat → Bool → List (Kind × Text) → List (Kind × Text) → Prop where
  | zero : Stand ps 0 false [] (flat ps)
  | tok {i : Nat} {p : Laid} : ps[i]? = some p →
      Stand ps (i + 1) false (flat (ps.take i) ++ [p.tok]) (p.gap ++ flat (ps.drop (i + 1)))
  | start {j : Nat} : j ≤ ps.length → Stand ps j true (flat (ps.take j)) (flat (ps.drop j))

theorem Stand.pre {ps : List Laid} {j : Nat} {b : Bool} {pre post : List (Kind × Text)} (h : Stand ps j b pre post) :
    pre = standing ps j b ∧ j ≤ ps.length := by
  cases h with
  | zero => exact ⟨rfl, Nat.zero_le _⟩
  | tok hp =>
    refine ⟨?_, (List.getElem?_eq_some_iff.1 hp).1⟩
    simp only [standing, hp, Option.map_some, Option.toList_some]
  | start hj => exact ⟨rfl, hj⟩

/-- Trivia up to a token that is not can be split off in one way only. -/
theorem split_trivia {t g r rest : List (Kind × Text)} {x : Kind × Text}
    (ht : ∀ y ∈ t, y.1.isTrivia = true) (hg : ∀ y ∈ g, y.1.isTrivia = true) (hx : x.1.isTrivia = false)
    (hr : ∀ y, rest.head? = some y → y.1.isTrivia = false) (h : t ++ x :: r = g ++ rest) : t = g ∧ x :: r = rest := by
  induction t generalizing g with
  | nil =>
    cases g with
    | nil => exact ⟨rfl, h⟩
    | cons y g =>
      cases h
      rw [hg _ List.mem_cons_self] at hx
      cases hx
  | cons y t ih =>
    cases g with
    | nil =>
      have := hr y (by rw [← List.nil_append rest, ← h]; rfl)
      rw [ht _ List.mem_cons_self] at this
      cases this
    | cons z g =>
      simp only [List.cons_append, List.cons.injEq] at h
      obtain ⟨rfl, h⟩ := h
      obtain ⟨rfl, e⟩ := ih (fun y hy => ht y (List.mem_cons_of_mem _ hy)) (fun y hy => hg y (List.mem_cons_of_mem _ hy)) h
      exact ⟨rfl, e⟩

theorem split_trivia' {t g r rest : List (Kind × Text)}
    (ht : ∀ y ∈ t, y.1.isTrivia = true) (hg : ∀ y ∈ g, y.1.isTrivia = true)
    (hr : ∀ y, r.head? = some y → y.1.isTrivia = false)
    (hr' : ∀ y, rest.head? = some y → y.1.isTrivia = false) (h : t ++ r = g ++ rest) : t = g ∧ r = rest := by
  cases r with
  | cons x r => exact split_trivia ht hg (hr x rfl) hr' h
  | nil =>
    cases rest with
    | cons x rest =>
      obtain ⟨e1, e2⟩ := split_trivia hg ht (hr' x rfl) hr h.symm
      exact ⟨e1.symm, e2.symm⟩
    | nil => simp only [List.append_nil] at h; exact ⟨h, rfl⟩

theorem flat_take_succ {ps : List Laid} {i : Nat} {p : Laid} (h : ps[i]? = some p) :
    flat (ps.take (i + 1)) = flat (ps.take i) ++ [p.tok] ++ p.gap := by
  rw [List.take_add_one, h]
  simp [flat]

theorem flat_drop {ps : List Laid} {i : Nat} {p : Laid} (h : ps[i]? = some p) :
    flat (ps.drop i) = p.tok :: (p.gap ++ flat (ps.drop (i + 1))) := by
  obtain ⟨hi, e⟩ := List.getElem?_eq_some_iff.1 h
  rw [List.drop_eq_getElem_cons hi, e]
  simp [flat]

/-- The pieces are what they should be. -/
structure Pieces (ps : List Laid) : Prop where
  toks : ∀ (i : Nat) (p : Laid), ps[i + 1]? = some p → p.tok.1.isTrivia = false
  gaps : ∀ p ∈ ps, ∀ t ∈ p.gap, t.1.isTrivia = true

theorem Pieces.head {ps : List Laid} (h : Pieces ps) (i : Nat) :
    ∀ y, (flat (ps.drop (i + 1))).head? = some y → y.1.isTrivia = false := by
  intro y hy
  cases e : ps[i + 1]? with
  | none =>
    rw [List.drop_eq_nil_of_le (List.getElem?_eq_none_iff.1 e)] at hy
    cases hy
  | some p =>
    rw [flat_drop e] at hy
    cases hy
    exact h.toks i p e

/-- Starting a node takes in the trivia. -/
theorem Stand.startNode {ps : List Laid} (hps : Pieces ps) {j : Nat} {b : Bool} {pre t post : List (Kind × Text)}
    (h : Stand ps j b pre (t ++ post)) (ht : ∀ x ∈ t, x.1.isTrivia = true)
    (hp : ∀ x, post.head? = some x → x.1.isTrivia = false) (h0 : pre = [] → t = []) :
    Stand ps j true (pre ++ t) post := by
  generalize hq : t ++ post = q at h
  cases h with
  | zero =>
    cases h0 rfl
    rw [List.nil_append] at hq
    rw [hq]
    exact .start (Nat.zero_le _)
  | @tok i p hi =>
    obtain ⟨rfl, rfl⟩ := split_trivia' ht (hps.gaps p (List.mem_of_getElem? hi)) hp (hps.head i) hq
    rw [← flat_take_succ hi]
    exact .start (List.getElem?_eq_some_iff.1 hi).1
  | start hj =>
    cases j with
    | zero =>
      cases h0 rfl
      rw [List.nil_append] at hq
      rw [hq, List.append_nil]
      exact .start hj
    | succ j =>
      obtain ⟨rfl, rfl⟩ := split_trivia' (g := []) ht (by simp) hp (hps.head j) hq
      rw [List.append_nil]
      exact .start hj

/-- Attaching a token takes in the trivia in front of it. -/
theorem Stand.token {ps : List Laid} (hps : Pieces ps) {j : Nat} {b : Bool} {pre t post : List (Kind × Text)}
    {x : Kind × Text} (h : Stand ps j b pre (t ++ x :: post)) (ht : ∀ x ∈ t, x.1.isTrivia = true)
    (hx : pre ≠ [] → x.1.isTrivia = false) (h0 : pre = [] → t = []) :
    Stand ps (j + 1) false (pre ++ t ++ [x]) post := by
  have first : ∀ {post : List (Kind × Text)}, x :: post = flat ps → Stand ps 1 false [x] post := by
    intro post hq
    cases ps with
    | nil => cases hq
    | cons p ps =>
      have hq : x :: post = p.tok :: (p.gap ++ flat ps) := hq
      cases hq
      exact Stand.tok (ps := p :: ps) (i := 0) (p := p) rfl
  have other : ∀ {i : Nat}, x :: post = flat (ps.drop i) →
      Stand ps (i + 1) false (flat (ps.take i) ++ [x]) post := by
    intro i hq
    cases e : ps[i]? with
    | none =>
      rw [List.drop_eq_nil_of_le (List.getElem?_eq_none_iff.1 e)] at hq
      cases hq
    | some p =>
      rw [flat_drop e] at hq
      cases hq
      exact .tok e
  generalize hq : t ++ x :: post = q at h
  cases h with
  | zero =>
    cases h0 rfl
    exact first hq
  | @tok i p hi =>
    obtain ⟨rfl, e⟩ := split_trivia ht (hps.gaps p (List.mem_of_getElem? hi)) (hx (by simp)) (hps.head i) hq
    rw [← flat_take_succ hi]
    exact other e
  | start hj =>
    cases j with
    | zero =>
      cases h0 rfl
      exact first hq
    | succ j =>
      have hne : flat (ps.take (j + 1)) ≠ [] := by
        cases ps with
        | nil => exact absurd hj (by simp)
        | cons p ps => simp [flat]
      obtain ⟨rfl, e⟩ := split_trivia (g := []) ht (by simp) (hx hne) (hps.head j) hq
      rw [List.append_nil]
      exact other e

/-- Where the errors are put. -/
theorem places {ps : List Laid} (hps : Pieces ps) (os : List Op) (hok : ∀ o ∈ os, OpOk o) {s r : Sink}
    {pre post : List (Kind × Text)} {ext base : List (Kind × Green)} {d j : Nat} {b : Bool} (inv : SInv s pre post)
    (hpend : Pending pre (opKinds os) post) (hs : s.state ≠ .pendingStart)
    (hst : Starts pre post os) (hext : s.opens = ext ++ base) (hd : depth ext.length os = some d)
    (hp : Stand ps j b pre post) (hr : s.ops os = some r) :
    r.errors = s.errors ++ (marks j b os).map (fun m => ⟨m.1, spot ps m.2.1 m.2.2⟩) ∧
      ∀ m ∈ marks j b os, m.2.1 ≤ ps.length := by
  induction os generalizing s pre post ext j b with
  | nil => cases hr; exact ⟨by simp [marks], by simp [marks]⟩
  | cons o os ih =>
    have hok' : ∀ o ∈ os, OpOk o := fun o ho => hok o (List.mem_cons_of_mem _ ho)
    have ho := hok o (List.mem_cons_self ..)
    simp only [Sink.ops] at hr
    obtain ⟨q, hq, hrest⟩ := Option.bind_eq_some_iff.1 hr
    cases o with
    | startNode k =>
      have htriv : ∃ t post', post = t ++ post' ∧ (∀ x ∈ t, x.1.isTrivia = true) ∧
          (∀ x, post'.head? = some x → x.1.isTrivia = false) ∧ Pending (pre ++ t) (opKinds os) post' ∧
          Starts (pre ++ t) post' os ∧ (pre = [] → t = []) := by
        unfold Pending at hpend
        split at hpend
        · rename_i hpre
          subst hpre
          have hhead : ∀ x, post.head? = some x → x.1.isTrivia = false := by
            intro x hx
            cases hx1 : x.1.isTrivia with
            | false => rfl
            | true =>
              obtain ⟨k', n, he⟩ := hst rfl x hx hx1 _ rfl
              cases he
          refine ⟨[], post, rfl, by simp, hhead, by unfold Pending; rw [if_pos (List.append_nil _)]; exact hpend, ?_,
            fun _ => rfl⟩
          intro _ x hx hx1
          rw [hhead x hx] at hx1
          cases hx1
        · rename_i hpre
          obtain ⟨t, post', h1, h2, h3, h4⟩ := Aligned.dropTrivia hpend
          refine ⟨t, post', h1, h2, h3, ?_, ?_, fun h => absurd h hpre⟩
          · unfold Pending
            rw [if_neg (by simp [hpre])]
            exact h4
          · intro hnil; simp [hpre] at hnil
      obtain ⟨t, post', rfl, h2, h3, h4, h5, h6⟩ := htriv
      obtain ⟨s', g, e1, i1, n1, o1⟩ := startNode_inv inv hs h2 h3 ho
      have e1' : s.op (.startNode k) = some s' := e1
      rw [e1'] at hq
      cases hq
      have := ih hok' (ext := (k, g) :: ext) i1 h4 (by rw [n1]; decide) h5 (by rw [o1, hext]; rfl) hd
        (hp.startNode hps h2 h3 h6) hrest
      rw [op_silent e1' rfl] at this
      exact this
    | finishNode =>
      cases ext with
      | nil => cases hd
      | cons p ext =>
        obtain ⟨s', e1, i1, n1, o1, _⟩ := finishNode_inv inv hs hext
        have h5 : Starts pre post os := by
          intro hpre x hx hx1
          obtain ⟨k', n, he⟩ := hst hpre x hx hx1 _ rfl
          cases he
        have e1' : s.op .finishNode = some s' := e1
        rw [e1'] at hq
        cases hq
        have := ih hok' i1 hpend (by rw [n1]; decide) h5 o1 hd hp hrest
        rw [op_silent e1' rfl] at this
        exact this
    | error msg =>
      obtain ⟨i1, n1, o1⟩ := error_inv inv msg
      have h5 : Starts pre post os := by
        intro hpre x hx hx1
        obtain ⟨k', n, he⟩ := hst hpre x hx hx1 _ rfl
        cases he
      have e1' : s.op (.error msg) = some (s.error msg) := rfl
      rw [e1'] at hq
      cases hq
      have := ih hok' i1 hpend (by rw [n1]; exact hs) h5 (by rw [o1]; exact hext) hd hp hrest
      refine ⟨?_, ?_⟩
      · rw [this.1]
        simp only [Sink.error, marks, List.map_cons, List.append_assoc, List.cons_append, List.nil_append, inv.textPos,
          spot, hp.pre.1]
      · intro m hm
        rcases List.mem_cons.1 hm with rfl | hm
        · exact hp.pre.2
        · exact this.2 m hm
    | token kd n =>
      have hn : n = 1 := ho
      subst hn
      have htriv : ∃ t k u post', post = t ++ (k, u) :: post' ∧ (∀ x ∈ t, x.1.isTrivia = true) ∧
          KindFor kd k ∧ (pre ≠ [] → k.isTrivia = false) ∧ (pre = [] → t = []) ∧
          Aligned (opKinds os) post' := by
        have hkinds : opKinds (.token kd 1 :: os) = kd :: opKinds os := rfl
        rw [hkinds] at hpend
        unfold Pending at hpend
        split at hpend
        · rename_i hpre
          cases hpend with
          | cons h1 h2 => exact ⟨[], _, _, _, rfl, by simp, h1, (fun h => absurd hpre h), fun _ => rfl, h2⟩
        · rename_i hpre
          cases hpend with
          | cons h1 h2 h3 h4 =>
            exact ⟨_, _, _, _, rfl, h1, h2, (fun _ => h3), fun h => absurd h hpre, h4⟩
      obtain ⟨t, k, u, post', rfl, h1, h2, h3, h4, h5⟩ := htriv
      obtain ⟨s', e1, i1, n1, o1⟩ := token_inv inv hs h1 h2 h3 h4
      have e1' : s.op (.token kd 1) = some s' := e1
      rw [e1'] at hq
      cases hq
      have := ih hok' i1 (by unfold Pending; rw [if_neg (by simp)]; exact h5) n1
        (fun hnil => by simp at hnil) (by rw [o1]; exact hext) hd (hp.token hps h1 h3 h4) hrest
      rw [op_silent e1' rfl] at this
      exact this

theorem laidOut_pieces {ts lead : List (Kind × Text)} {ps : List Laid} (h : LaidOut ts lead ps) :
    flat (pieces lead ps) = ts ∧ Pieces (pieces lead ps) := by
  cases lead with
  | nil =>
    refine ⟨h.tokens.symm, ⟨fun i p hp => h.toks p (List.mem_of_getElem? hp), h.gaps⟩⟩
  | cons a l =>
    refine ⟨h.tokens.symm, ⟨fun i p hp => h.toks p (List.mem_of_getElem? hp), ?_⟩⟩
    intro p hp t ht
    rcases List.mem_cons.1 hp with rfl | hp
    · exact h.lead t (List.mem_cons_of_mem _ ht)
    · exact h.gaps p hp t ht

/-- The errors of a text stand where the calls of the grammar put them. -/
theorem parse_placed {text : Text} {ts lead : List (Kind × Text)} {ps : List Laid} (hl : Lexes text ts)
    (ho : LaidOut ts lead ps) {n : Nat} (hn : maxDepth text ≤ n) {s : TState}
    (hr : run tokenLevel (callN tokenLevel body n) root ⟨Parser.annot ts, 0, 0, .nil, []⟩ = .ok () s) :
    ∃ kids kind tree errors, s.items = .node .nil .SOURCE_FILE .nil kids ∧ parse text = .ok kind tree errors ∧
      errors = (marks 0 false kids.ops).map (fun m => ⟨m.1, spot (pieces lead ps) m.2.1 m.2.2⟩) ∧
      ∀ m ∈ marks 0 false kids.ops, m.2.1 ≤ (pieces lead ps).length := by
  obtain ⟨lx, hnew, hst⟩ := Stands.new hl
  have hg := root_good hnew n hn
  have he := run_erases (M := highLevel) (cb := callB highLevel body n) (c := callN highLevel body n)
    (fun f s => callB_erases highLevel body n n (Nat.le_refl _) f s) root
    (HState.initial lx, maxDepth text)
  have ha := tokenLevel_agree.run (callN_agree tokenLevel_agree body n) root (HState.initial lx)
    ⟨Parser.annot ts, 0, 0, .nil, []⟩ ⟨⟨ts, hst, rfl⟩, rfl, rfl, rfl, rfl⟩
  have hlow := highLevel_agree.run (callN_agree highLevel_agree body n) root (HState.initial lx)
    (PState.initial lx) ⟨rfl, rfl, rfl, rfl, trivial, trivial⟩
  rw [hr] at ha
  generalize run (budgeted highLevel) (callB highLevel body n) root
    (HState.initial lx, maxDepth text) = ob at hg he
  rcases he with rfl | he
  · exact absurd hg id
  · simp only at he
    rw [he] at ha hlow
    cases ob with
    | ok a s' =>
      obtain ⟨h, b⟩ := s'
      obtain ⟨s2, e2, trep⟩ := ha
      cases e2
      obtain ⟨l, e3, rep⟩ := hlow
      have fin : Finished text h := hg
      obtain ⟨kids, hi⟩ := fin.tree
      obtain ⟨ops, sink, tree, errors, ts', h1, h2, h3, h4, h5, h6⟩ := build_tree fin rep
      obtain ⟨ts'', s1, hl'', rd⟩ := sink_ready fin rep hi
      cases hl.unique hl''
      have hev : l.events = (Forest.node .nil .SOURCE_FILE .nil kids).ev none := by
        rw [rep.events, fin.outer, hi]; rfl
      have hwf : (Forest.node .nil .SOURCE_FILE .nil kids).Wf := by
        have := rep.wf
        rwa [hi] at this
      rw [hev, process_forest _ hwf] at h1
      cases h1
      have h3' : ((Sink.new text l.lexer.allTokens).startNode .SOURCE_FILE).bind (fun s => s.ops (kids.ops ++ [.finishNode]))
          = some sink := h3
      rw [rd.start, Option.bind_some, ops_append] at h3'
      obtain ⟨s2, g1, g2⟩ := Option.bind_eq_some_iff.1 h3'
      obtain ⟨hflat, hps⟩ := laidOut_pieces ho
      have hdep := depth_forest kids 0 []
      rw [List.append_nil] at hdep
      have hpl := places hps kids.ops (opOk_forest kids hwf.2.2.2.2) (ext := []) (base := [(.SOURCE_FILE, .nil)]) rd.inv
        rd.pending (by rw [rd.state]; decide) rd.starts rd.opens hdep (by rw [← hflat]; exact .zero) g1
      refine ⟨kids, .SOURCE_FILE, tree, errors, ?_, ?_, ?_, hpl.2⟩
      · rw [trep.items, hi]
      · rw [← parse_depth text n hn]
        have e4 : parseEvents n text = .ok () l := by
          unfold parseEvents
          rw [hnew]
          exact e3
        unfold parseWithDepth
        rw [e4]
        simp only [hev, process_forest _ hwf, h3, h4]
        rfl
      · have e5 : s2.op .finishNode = some sink := by
          simp only [Sink.ops] at g2
          obtain ⟨q, hq, hz⟩ := Option.bind_eq_some_iff.1 g2
          cases hz
          exact hq
        rw [(open_finish h4).2, op_silent e5 rfl, hpl.1, rd.errors, List.nil_append]
    | panic w =>
      have : (Out.ok () s : Out TState Unit) = .panic w := by
        rcases hg with rfl | rfl | rfl <;> exact ha
      cases this
    | outOfFuel => exact absurd hg id

/-- **C58, partial.**  Reformatting a text moves its errors along with the tokens: every error has a token such that it is
reported right behind that token in both texts, or else behind the whitespace and comments that follow it in both
texts; the messages are the same.  The exceptions are the same as those of `parse_reformatted_partial`. -/
theorem parse_reformatted_places_partial {text text' : Text} {ts ts' lead lead' : List (Kind × Text)} {ps ps' : List Laid}
    (h : Lexes text ts) (h' : Lexes text' ts') (hl : LaidOut ts lead ps) (hl' : LaidOut ts' lead' ps')
    (hlead : lead.head?.map (·.1) = lead'.head?.map (·.1)) (hr : Reformatted none ps ps')
    {k k' : Kind} {tree tree' : Green} {errors errors' : List SyntaxError}
    (e : parse text = .ok k tree errors) (e' : parse text' = .ok k' tree' errors') :
    ∃ places : List (String × Nat × Bool),
      errors = places.map (fun m => ⟨m.1, spot (pieces lead ps) m.2.1 m.2.2⟩) ∧
      errors' = places.map (fun m => ⟨m.1, spot (pieces lead' ps') m.2.1 m.2.2⟩) ∧
      ∀ m ∈ places, m.2.1 ≤ (pieces lead ps).length := by
  have f1 := parse_follows h (n := maxDepth text + maxDepth text') (Nat.le_add_right _ _)
  have f2 := parse_follows h' (n := maxDepth text + maxDepth text') (Nat.le_add_left _ _)
  have p1 := @parse_placed text ts lead ps h hl (maxDepth text + maxDepth text') (Nat.le_add_right _ _)
  have p2 := @parse_placed text' ts' lead' ps' h' hl' (maxDepth text + maxDepth text') (Nat.le_add_left _ _)
  have key := reformatted_run hl hl' hlead hr (maxDepth text + maxDepth text')
  generalize run tokenLevel (callN tokenLevel body (maxDepth text + maxDepth text')) root
    ⟨Parser.annot ts, 0, 0, .nil, []⟩ = o at f1 p1 key
  generalize run tokenLevel (callN tokenLevel body (maxDepth text + maxDepth text')) root
    ⟨Parser.annot ts', 0, 0, .nil, []⟩ = o' at f2 p2 key
  cases o with
  | ok a s =>
    cases o' with
    | ok a' s' =>
      obtain ⟨kids, k1, t1, r1, g1, g2, g3, g4⟩ := p1 rfl
      obtain ⟨kids', k1', t1', r1', g1', g2', g3', _⟩ := p2 rfl
      rw [key.2.items, g1'] at g1
      cases g1
      rw [g2] at e
      rw [g2'] at e'
      cases e
      cases e'
      exact ⟨_, g3, g3', g4⟩
    | panic w => exact absurd key id
    | outOfFuel => exact absurd key id
  | panic w =>
    have f1 : parse text = .panic w := f1
    rw [f1] at e
    cases e
  | outOfFuel => exact absurd f1 id

/-- Witness of `parse_reformatted_places_partial`: the errors stand right behind `fun`, the fourth token, in both texts. -/
example : ∃ (ts ts' lead lead' : List (Kind × Text)) (ps ps' : List Layout.Laid),
    Lexes "module M{fun}".toList ts ∧ Lexes "module M{ fun // x\n }".toList ts' ∧
    Layout.LaidOut ts lead ps ∧ Layout.LaidOut ts' lead' ps' ∧ Layout.Reformatted none ps ps' ∧
    lead.head?.map (·.1) = lead'.head?.map (·.1) ∧
    errorsOf "module M{fun}".toList =
      some ([("expected a name", 4, false), ("expected function arguments", 4, false), ("expected a block", 4, false)].map
        fun m => ⟨m.1, spot (pieces lead ps) m.2.1 m.2.2⟩) ∧
    errorsOf "module M{ fun // x\n }".toList =
      some ([("expected a name", 4, false), ("expected function arguments", 4, false), ("expected a block", 4, false)].map
        fun m => ⟨m.1, spot (pieces lead' ps') m.2.1 m.2.2⟩) ∧
    spot (pieces lead ps) 4 false = 12 ∧ spot (pieces lead' ps') 4 false = 13 ∧ spot (pieces lead' ps') 4 true = 20 := by
  refine ⟨[(.MODULE_KW, "module".toList), (.WHITESPACE, " ".toList), (.IDENT, "M".toList), (.L_BRACE, "{".toList), (.FUN_KW, "fun".toList), (.R_BRACE, "}".toList)],
    [(.MODULE_KW, "module".toList), (.WHITESPACE, " ".toList), (.IDENT, "M".toList), (.L_BRACE, "{".toList), (.WHITESPACE, " ".toList), (.FUN_KW, "fun".toList),
      (.WHITESPACE, " ".toList), (.COMMENT, "// x\n".toList), (.WHITESPACE, " ".toList), (.R_BRACE, "}".toList)], [], [],
    [⟨(.MODULE_KW, "module".toList), [(.WHITESPACE, " ".toList)]⟩, ⟨(.IDENT, "M".toList), []⟩, ⟨(.L_BRACE, "{".toList), []⟩, ⟨(.FUN_KW, "fun".toList), []⟩, ⟨(.R_BRACE, "}".toList), []⟩],
    [⟨(.MODULE_KW, "module".toList), [(.WHITESPACE, " ".toList)]⟩, ⟨(.IDENT, "M".toList), []⟩, ⟨(.L_BRACE, "{".toList), [(.WHITESPACE, " ".toList)]⟩,
      ⟨(.FUN_KW, "fun".toList), [(.WHITESPACE, " ".toList), (.COMMENT, "// x\n".toList), (.WHITESPACE, " ".toList)]⟩, ⟨(.R_BRACE, "}".toList), []⟩],
    lexes_of_check (by decide +kernel), lexes_of_check (by decide +kernel), laidOut_of_check (by decide +kernel),
    laidOut_of_check (by decide +kernel), ?_, rfl, by decide +kernel, by decide +kernel, by decide +kernel, by decide +kernel,
    by decide +kernel⟩
  repeat' (first | exact .nil | refine .cons (by simp [Layout.Delicate, Layout.HasComment, Layout.next]) (by simp [Layout.ClosesPath]) ?_)

end Verif.Parser
