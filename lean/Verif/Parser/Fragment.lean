import Verif.Parser.AcceptTop
import Verif.Parser.Shapes
import Verif.Parser.Props

set_option autoImplicit false

/-!
C56 and C57: a file of the grammar of `Language.lean` is parsed without errors, into its tree.
-/

namespace Verif.Parser

open Language Lexer

/-! ### From tokens to texts -/

/-- What a run of the machine on tokens, of sufficient depth, says about the parser. -/
def Follows (text : Text) (o : Out TState Unit) : Prop :=
  match o with
  | .ok _ s => ∃ kids tree errors, s.items = .node .nil .SOURCE_FILE .nil kids ∧
      parse text = .ok .SOURCE_FILE tree errors ∧ tree.shapes = kids.shape ∧ messages errors = kids.msgs
  | .panic w => parse text = .panic w
  | .outOfFuel => False

/-- The parser does what the machine on tokens does. -/
theorem parse_follows {text : Text} {ts : List (Kind × Text)} (hl : Lexes text ts) {n : Nat}
    (hn : maxDepth text ≤ n) :
    Follows text (run tokenLevel (callN tokenLevel body n) root ⟨annot ts, 0, 0, .nil, []⟩) := by
  obtain ⟨lx, hnew, hst⟩ := Stands.new hl
  have hg := root_good hnew n hn
  have he := run_erases (M := highLevel) (cb := callB highLevel body n) (c := callN highLevel body n)
    (fun f s => callB_erases highLevel body n n (Nat.le_refl _) f s) root
    (HState.initial lx, maxDepth text)
  have ha := tokenLevel_agree.run (callN_agree tokenLevel_agree body n) root (HState.initial lx)
    ⟨annot ts, 0, 0, .nil, []⟩ ⟨⟨ts, hst, rfl⟩, rfl, rfl, rfl, rfl⟩
  have hlow := highLevel_agree.run (callN_agree highLevel_agree body n) root (HState.initial lx)
    (PState.initial lx) ⟨rfl, rfl, rfl, rfl, trivial, trivial⟩
  generalize run tokenLevel (callN tokenLevel body n) root ⟨annot ts, 0, 0, .nil, []⟩ = ot at ha
  generalize run (budgeted highLevel) (callB highLevel body n) root
    (HState.initial lx, maxDepth text) = ob at hg he
  rcases he with rfl | he
  · exact absurd hg id
  · simp only at he
    rw [he] at ha hlow
    cases ob with
    | ok a s =>
      obtain ⟨h, b⟩ := s
      obtain ⟨s2, rfl, trep⟩ := ha
      obtain ⟨l, e3, rep⟩ := hlow
      have fin : Finished text h := hg
      obtain ⟨kids, hi⟩ := fin.tree
      obtain ⟨ops, sink, tree, errors, ts', h1, h2, h3, h4, h5, h6⟩ := build_tree fin rep
      have hev : l.events = (Forest.node .nil .SOURCE_FILE .nil kids).ev none := by
        rw [rep.events, fin.outer, hi]; rfl
      have hwf : (Forest.node .nil .SOURCE_FILE .nil kids).Wf := by
        have := rep.wf
        rwa [hi] at this
      rw [hev, process_forest _ hwf] at h1
      cases h1
      obtain ⟨hs, hm⟩ := build_shapes h3 h4
      refine ⟨kids, tree, errors, by rw [trep.items, hi], ?_, hs, hm⟩
      rw [← parse_depth text n hn]
      have e4 : parseEvents n text = .ok () l := by
        unfold parseEvents
        rw [hnew]
        exact e3
      unfold parseWithDepth
      rw [e4]
      simp only [hev, process_forest _ hwf, h3, h4]
      rfl
    | panic w =>
      have e3 : ot = .panic w ∧ run lowLevel (callN lowLevel body n) root (PState.initial lx) = .panic w := by
        rcases hg with rfl | rfl | rfl <;> exact ⟨ha, hlow⟩
      obtain ⟨rfl, e3⟩ := e3
      show parse text = .panic w
      rw [← parse_depth text n hn]
      unfold parseWithDepth parseEvents
      rw [hnew]
      simp only [PState.initial] at e3
      simp only [e3]
    | outOfFuel => exact absurd hg id

/-- When it makes too many lookups, the parser panics. -/
theorem parse_of_overrun {text : Text} {ts : List (Kind × Text)} {s' : TState} (hl : Lexes text ts)
    (hr : Runs root ⟨annot ts, 0, 0, .nil, []⟩ () s') (hu : stepLimit + 1 < s'.used) :
    parse text = .panic .stuck := by
  obtain ⟨N, hN⟩ := hr.overrun (by simp) hu
  have := parse_follows hl (n := N + maxDepth text) (Nat.le_add_left _ _)
  rw [hN _ (Nat.le_add_right _ _)] at this
  exact this

/-- The tree of a run without errors. -/
theorem parse_of_runs {text : Text} {ts : List (Kind × Text)} {u n : Nat} {kids : Forest} {w : List Tok}
    (hl : Lexes text ts)
    (hr : Runs root ⟨annot ts, 0, 0, .nil, []⟩ () ⟨w, u, n, .node .nil .SOURCE_FILE .nil kids, []⟩)
    (hu : u ≤ stepLimit + 1) (he : kids.errs = 0) :
    ∃ tree, parse text = .ok .SOURCE_FILE tree [] ∧ tree.shapes = kids.shape := by
  obtain ⟨N, hN⟩ := hr.limited hu
  have := parse_follows hl (n := N + maxDepth text) (Nat.le_add_left _ _)
  rw [hN _ (Nat.le_add_right _ _)] at this
  obtain ⟨kids', tree, errors, hi, hp, hs, hm⟩ := this
  cases hi
  rw [forest_no_msgs he] at hm
  have : errors = [] := List.map_eq_nil_iff.1 hm
  subst this
  exact ⟨tree, hp, hs⟩

/-! ### The tokens of a text -/

theorem annotSig_pair (ts : List (Kind × Text)) : (annotSig ts).map Tok.pair = significant ts := by
  induction ts with
  | nil => rfl
  | cons x ts ih =>
    unfold annotSig significant
    rw [List.filter_cons]
    cases h : x.1.isTrivia with
    | true =>
      rw [if_pos rfl, if_neg (by simp only [Kind.isTrivia] at h; simp [h])]
      exact ih
    | false =>
      rw [if_neg (by simp), if_pos (by simp only [Kind.isTrivia] at h; simp [h]), List.map_cons]
      exact congrArg (x :: ·) ih

theorem idents_annotSig (ts : List (Kind × Text)) :
    idents (annotSig ts) = (significant ts).countP (·.1 == .IDENT) := by
  rw [← annotSig_pair]
  induction annotSig ts with
  | nil => rfl
  | cons t w ih =>
    rw [List.map_cons, List.countP_cons, ← ih, idents]
    simp only [Tok.pair, beq_iff_eq]
    omega

theorem kind0_annotSig (ts : List (Kind × Text)) : kind0 (annotSig ts) = headKind (skip ts) := by
  rw [← annot_skip, kind0_annot]

theorem skip_of_whitespace (ts : List (Kind × Text))
    (h : (ts.dropWhile (·.1 == .WHITESPACE)).head?.map Prod.fst ≠ some .COMMENT) :
    headKind (ts.dropWhile (·.1 == .WHITESPACE)) = headKind (skip ts) := by
  induction ts with
  | nil => rfl
  | cons x ts ih =>
    unfold skip
    rw [List.dropWhile_cons, List.dropWhile_cons] at *
    cases hx : x.1 == .WHITESPACE with
    | true =>
      rw [hx] at h
      rw [if_pos rfl, if_pos (by rw [Kind.isTrivia, hx]; rfl)]
      exact ih h
    | false =>
      rw [hx] at h
      have hc : (x.1 == .COMMENT) = false := by
        have : x.1 ≠ .COMMENT := by simpa using h
        simpa using this
      rw [if_neg (by simp), if_neg (by rw [Kind.isTrivia, hx, hc]; simp)]

theorem Spaced.tail {x : Kind × Text} {ts : List (Kind × Text)} (h : Spaced (x :: ts)) : Spaced ts where
  comment before k t after e hk := h.comment (x :: before) k t after (by rw [e]; rfl) hk
  path before t y k u after e := h.path (x :: before) t y k u after (by rw [e]; rfl)

theorem Spaced.clean {ts : List (Kind × Text)} (h : Spaced ts) : Clean (annotSig ts) [] := by
  induction ts with
  | nil => trivial
  | cons x ts ih =>
    unfold annotSig
    split
    · exact ih h.tail
    · refine ⟨fun hk => ?_, fun hk => ?_, ih h.tail⟩
      · rw [List.append_nil, kind0_annotSig]
        exact skip_of_whitespace ts (h.comment [] x.1 x.2 ts rfl hk)
      · have hk' : x.1 = .COLON_COLON := hk
        show headKind (ts.drop 1) ≠ _ ∧ headKind (ts.drop 1) ≠ _
        match ts, h with
        | [], _ => exact ⟨nofun, nofun⟩
        | [_], _ => exact ⟨nofun, nofun⟩
        | y :: z :: r, h =>
          obtain ⟨kx, tx⟩ := x
          cases hk'
          exact h.path [] tx y z.1 z.2 r rfl

/-! ### The whole file -/

theorem wp_root {ts : List (Kind × Text)} {sh : List Shape} (hs : Spaced ts)
    (hd : Derives [.nt .file] (significant ts) sh) :
    WP root ⟨annot ts, 0, 0, .nil, []⟩ fun _ s => ∃ w u n kids,
      s = ⟨w, u, n, .node .nil .SOURCE_FILE .nil kids, []⟩ ∧ u ≤ 10 * (significant ts).length + 9 ∧
        (significant ts).countP (·.1 == .IDENT) ≤ u ∧
        kids.errs = 0 ∧ kids.shape = sh := by
  have hlen : (annotSig ts).length = (significant ts).length := by
    rw [← annotSig_pair, List.length_map]
  have hid := idents_annotSig ts
  have hacc := acc_file hd (annotSig_pair ts)
  have hfile : ∀ u n i o (Q : Unit → TState → Prop),
      (∀ r u' n' i', u' ≤ u + 10 * (significant ts).length + 5 →
        u + (significant ts).countP (·.1 == .IDENT) ≤ u' → Grows i sh i' → Q r ⟨[], u', n', i', o⟩) →
      WP (body .rootLoop) ⟨annotSig ts, u, n, i, o⟩ Q := by
    intro u n i o Q hQ
    have := hacc [] u n i o hs.clean rfl Q
      (fun r u' n' i' _ hu hg => hQ r u' n' i' (by omega) (by omega) hg)
    rwa [List.append_nil] at this
  unfold root
  rw [wp_start]
  refine WP.call ?_
  have fin : ∀ (r : Unit) u' n' i' j, u' ≤ 10 * (significant ts).length + 9 →
      (significant ts).countP (·.1 == .IDENT) ≤ u' → j.errs = 0 → j.shape = [] → Grows j sh i' →
      WP (do let _ ← (⟨0⟩ : Marker).complete .SOURCE_FILE) ⟨[], u', n', i', [(.nil, .nil)]⟩
        fun _ s => ∃ w u n kids,
          s = ⟨w, u, n, .node .nil .SOURCE_FILE .nil kids, []⟩ ∧ u ≤ 10 * (significant ts).length + 9 ∧
        (significant ts).countP (·.1 == .IDENT) ≤ u ∧
            kids.errs = 0 ∧ kids.shape = sh := by
    intro r u' n' i' j hu hu' h1 h2 hg
    rw [wp_complete, wp_pure]
    exact ⟨_, _, _, _, rfl, hu, hu', by rw [hg.errs, h1], by rw [hg.shape, h2, List.nil_append]⟩
  match ts, hs, hlen, hfile, fin with
  | [], _, _, hfile, fin =>
    exact hfile _ _ _ _ _ fun r u' n' i' hu hu' hg => fin r u' n' i' .nil (by omega) (by omega) rfl rfl hg
  | x :: ts, hs, hlen, hfile, fin =>
    cases hx : x.1.isTrivia with
    | false =>
      have e : annot (x :: ts) = annotSig (x :: ts) := by
        rw [annotSig, hx]; rfl
      rw [e]
      exact hfile _ _ _ _ _ fun r u' n' i' hu hu' hg => fin r u' n' i' .nil (by omega) (by omega) rfl rfl hg
    | true =>
      have e : annotSig (x :: ts) = annotSig ts := by
        rw [annotSig, hx]; rfl
      rw [e] at hfile
      obtain ⟨k, t⟩ := x
      have hk : kind0 (annot ((k, t) :: ts)) = k := congrArg (fun x : Kind => x) rfl
      have b1 : (k == .EOF) = false := by
        cases k <;> first | rfl | cases hx
      have b2 : (k == .MODULE_KW) = false := by
        cases k <;> first | rfl | cases hx
      have b3 : (k == .SCRIPT_KW) = false := by
        cases k <;> first | rfl | cases hx
      have b4 : (k == .ADDRESS_KW) = false := by
        cases k <;> first | rfl | cases hx
      have hx' : k.isTrivia = true := hx
      show WP rootLoopBody _ _
      unfold rootLoopBody
      simp only [wp_at, hk, b1, b2, b3, b4, Bool.not_false, if_true, Bool.false_eq_true, if_false,
        wp_current, hx', bumpAny, bind_assoc_prog, wp_doBump]
      refine WP.last ?_
      rw [show (annot ((k, t) :: ts)).tail = annotSig ts from rfl]
      exact hfile _ _ _ _ _ fun r u' n' i' hu hu' hg =>
        fin r u' n' i' (.tok .nil k) (by omega) (by omega) rfl (by simp [Forest.shape, hx']) hg

/-- **C56.**  A text whose tokens form a file of the grammar is parsed without an error, into the
tree the grammar gives it, unless the parser runs into its step limit. -/
theorem parse_valid {text : Text} {ts : List (Kind × Text)} {shapes : List Shape}
    (hl : Lexes text ts) (hd : Derives [.nt .file] (significant ts) shapes) (hs : Spaced ts) :
    (∃ tree, parse text = .ok .SOURCE_FILE tree [] ∧ tree.shapes = shapes) ∨
      parse text = .panic .stuck := by
  obtain ⟨_, s', hr, w, u, n, kids, rfl, _, _, he, rfl⟩ := wp_root hs hd
  by_cases hu : u ≤ stepLimit + 1
  · exact .inl (parse_of_runs hl hr hu he)
  · exact .inr (parse_of_overrun hl hr (Nat.lt_of_not_le hu))

/-- **C57, partial.**  The limit is not reached by files of at most 999 tokens other than whitespace
and comments.  Missing: longer files; the parser panics on long ones, see below. -/
theorem parse_valid_partial {text : Text} {ts : List (Kind × Text)} {shapes : List Shape}
    (hl : Lexes text ts) (hd : Derives [.nt .file] (significant ts) shapes) (hs : Spaced ts)
    (hn : (significant ts).length ≤ 999) :
    ∃ tree, parse text = .ok .SOURCE_FILE tree [] ∧ tree.shapes = shapes := by
  obtain ⟨_, s', hr, w, u, n, kids, rfl, hu, _, he, rfl⟩ := wp_root hs hd
  exact parse_of_runs hl hr (by simp only [stepLimit]; omega) he

theorem Runs.unique {α : Type} {p : Prog α} {s s1 s2 : TState} {a b : α} (h1 : Runs p s a s1)
    (h2 : Runs p s b s2) : s1 = s2 := by
  obtain ⟨N1, h1⟩ := h1.run
  obtain ⟨N2, h2⟩ := h2.run
  have h1 := h1 (N1 + N2) (Nat.le_add_right _ _)
  rw [h2 (N1 + N2) (Nat.le_add_left _ _)] at h1
  cases h1
  rfl

/-- **C56.**  The grammar is unambiguous: tokens have at most one tree. -/
theorem derives_unique {ts : List (Kind × Text)} {a b : List Shape} (hs : Spaced ts)
    (ha : Derives [.nt .file] (significant ts) a) (hb : Derives [.nt .file] (significant ts) b) :
    a = b := by
  obtain ⟨_, _, hr, w, u, n, kids, rfl, _, _, _, rfl⟩ := wp_root hs ha
  obtain ⟨_, _, hr', w', u', n', kids', rfl, _, _, _, rfl⟩ := wp_root hs hb
  have := hr.unique hr'
  simp only [TState.mk.injEq, Forest.node.injEq] at this
  rw [this.2.2.2.1.2.2.2]

/-- **C57 does not hold**, and not only in exceptional cases: the parser panics on every file of
the grammar with more than 10,001 identifiers. -/
theorem parse_long_panics {text : Text} {ts : List (Kind × Text)} {shapes : List Shape}
    (hl : Lexes text ts) (hd : Derives [.nt .file] (significant ts) shapes) (hs : Spaced ts)
    (hn : 10001 < (significant ts).countP (·.1 == .IDENT)) : parse text = .panic .stuck := by
  obtain ⟨_, s', hr, w, u, n, kids, rfl, _, hu, _, _⟩ := wp_root hs hd
  exact parse_of_overrun hl hr (by simp only [stepLimit]; omega)

end Verif.Parser
