import Verif.Parser.Shift
import Verif.Parser.Samples

set_option autoImplicit false

/-!
What a valid part in front of a text does to the parse of the text behind it.
-/

namespace Verif.Parser

open Language Lexer Kind

/-! ### From outcomes of runs to outcomes of the parser -/

theorem shape_append (a b : Forest) : (a.append b).shape = a.shape ++ b.shape := by
  induction b with
  | nil => simp [Forest.append, Forest.shape]
  | tok i k ih => simp only [Forest.append, Forest.shape, ih]; split <;> simp
  | err i m ih => simp only [Forest.append, Forest.shape, ih]
  | tomb i ih => simp only [Forest.append, Forest.shape, ih]
  | node i k pre kids ih _ _ => simp only [Forest.append, Forest.shape, ih, List.append_assoc]

theorem msgs_append (a b : Forest) : (a.append b).msgs = a.msgs ++ b.msgs := by
  induction b with
  | nil => simp [Forest.append, Forest.msgs]
  | tok i k ih => simp only [Forest.append, Forest.msgs, ih]
  | err i m ih => simp only [Forest.append, Forest.msgs, ih, List.append_assoc]
  | tomb i ih => simp only [Forest.append, Forest.msgs, ih]
  | node i k pre kids ih _ _ => simp only [Forest.append, Forest.msgs, ih, List.append_assoc]

/-- The end of `root`. -/
def finish (o : Out TState Unit) : Out TState Unit :=
  o.bind fun _ s => (tComplete ⟨0⟩ SOURCE_FILE s).bind fun _ s => .ok () s

theorem root_loop (m : Nat) (T : List Tok) :
    run tokenLevel (callN tokenLevel body (m + 1)) root ⟨T, 0, 0, .nil, []⟩ =
      finish (run tokenLevel (callN tokenLevel body m) rootLoopBody ⟨T, 0, 1, .nil, [(.nil, .nil)]⟩) := rfl

/-- Leading whitespace or a leading comment. -/
theorem loop_trivia (m : Nat) {k : Kind} (hk : k.isTrivia = true) (t : Text) (a b : Kind) (w : List Tok)
    (o : List (Forest × Forest)) :
    run tokenLevel (callN tokenLevel body (m + 1)) rootLoopBody ⟨⟨k, t, a, b⟩ :: w, 0, 1, .nil, o⟩ =
      run tokenLevel (callN tokenLevel body m) rootLoopBody ⟨w, 4, 2, .tok .nil k, o⟩ := by
  have e : ∀ (x : Out TState Unit), (x.bind fun _ s => Out.ok () s) = x := by
    intro x; cases x <;> rfl
  cases k with
  | WHITESPACE => exact e _
  | COMMENT => exact e _
  | _ => cases hk

/-- The outcome `q` is the outcome `p` with the trees `front` in front. -/
def Continues (front : List Shape) (p q : Parsed) : Prop :=
  match p with
  | .ok k tree errors => ∃ tree' errors', q = .ok k tree' errors' ∧ tree'.shapes = front ++ tree.shapes ∧
      messages errors' = messages errors
  | .panic w => q = .panic w
  | .outOfFuel => False

/-- What stands in front of the tokens `w` of a text only adds its trees, or the lookups run out. -/
theorem continues {text text' : Text} {ts ts' : List (Kind × Text)} {front : Forest} {u n m k : Nat} {w : List Tok}
    (h : Lexes text ts) (h' : Lexes text' ts') (hw : annot ts = w) (he : front.errs = 0)
    (hm : maxDepth text ≤ m) (hm' : maxDepth text' ≤ m)
    (hr : run tokenLevel (callN tokenLevel body (m + k)) rootLoopBody ⟨annot ts', 0, 1, .nil, [(.nil, .nil)]⟩ =
      run tokenLevel (callN tokenLevel body m) rootLoopBody ⟨w, u, n, front, [(.nil, .nil)]⟩) :
    parse text' = .panic .stuck ∨ Continues front.shape (parse text) (parse text') := by
  have f1 := parse_follows h (n := m + 1) (by omega)
  have f2 := parse_follows h' (n := m + k + 1) (by omega)
  rw [root_loop] at f1 f2
  rw [hr] at f2
  rw [hw] at f1
  have key := par_rootLoopBody (d := 0) ⟨front, u, [(.nil, .nil)], [(.nil, .nil)]⟩ _ (shift_callN _ m)
    ⟨w, 0, 1, .nil, [(.nil, .nil)]⟩ ⟨w, u, n, front, [(.nil, .nil)]⟩
    ⟨rfl, by simp, .base .nil⟩
  generalize run tokenLevel (callN tokenLevel body m) rootLoopBody ⟨w, 0, 1, .nil, [(.nil, .nil)]⟩ = o1 at f1 key
  generalize run tokenLevel (callN tokenLevel body m) rootLoopBody ⟨w, u, n, front, [(.nil, .nil)]⟩ = o2 at f2 key
  cases key with
  | stuck => exact .inl f2
  | events =>
    have f1 : parse text = .panic .events := f1
    rcases parseWithDepth_cases text _ (Nat.le_refl _) with ⟨p, h1, _, hp⟩ | ⟨_, _, _, _, _, _, _, _, h1, _, _⟩
    · rw [show parse text = parseWithDepth (maxDepth text) text from rfl, h1] at f1
      cases f1
      rcases hp with hp | hp | hp <;> cases hp
    · rw [show parse text = parseWithDepth (maxDepth text) text from rfl, h1] at f1
      cases f1
  | panic p =>
    have f1 : parse text = .panic p := f1
    have f2 : parse text' = .panic p := f2
    right
    rw [f1, f2]
    rfl
  | fuel => exact absurd f1 id
  | ok hR hs =>
    rename_i s s'
    right
    obtain ⟨toks, used, n1, items, outer⟩ := s
    obtain ⟨toks', used', n1', items', outer'⟩ := s'
    obtain ⟨_, _, hl⟩ := hs
    simp only at hl
    cases hl
    obtain ⟨kids, tree, errors, e1, e2, e3, e4⟩ := f1
    obtain ⟨kids', tree', errors', e1', e2', e3', e4'⟩ := f2
    simp only [Forest.node.injEq] at e1 e1'
    obtain ⟨_, _, _, rfl⟩ := e1
    obtain ⟨_, _, _, rfl⟩ := e1'
    rw [e2, e2']
    refine ⟨tree', errors', rfl, ?_, ?_⟩
    · rw [e3', e3, shape_append]
    · rw [e4', e4, msgs_append, forest_no_msgs he, List.nil_append]

/-- The text behind leading whitespace and comments. -/
theorem lexes_skip {text : Text} {ts : List (Kind × Text)} (h : Lexes text ts) : ∃ text0, Lexes text0 (skip ts) := by
  induction ts generalizing text with
  | nil => exact ⟨text, h⟩
  | cons x ts ih =>
    unfold skip
    rw [List.dropWhile_cons]
    split
    · cases h with
      | cons _ _ h => exact ih h
    · exact ⟨text, h⟩

/-- Whitespace and comments in front make no difference, or the lookups run out. -/
theorem continues_trivia {text text0 : Text} {ts : List (Kind × Text)} (h : Lexes text ts) (h0 : Lexes text0 (skip ts)) :
    parse text = .panic .stuck ∨ Continues [] (parse text0) (parse text) := by
  cases ts with
  | nil =>
    exact continues (front := .nil) (u := 0) (n := 1) (k := 0) (m := maxDepth text + maxDepth text0) h0 h rfl rfl
      (Nat.le_add_left _ _) (Nat.le_add_right _ _) rfl
  | cons x ts =>
    obtain ⟨k, t⟩ := x
    cases hk : k.isTrivia with
    | false =>
      have e : skip ((k, t) :: ts) = (k, t) :: ts := by
        unfold skip
        rw [List.dropWhile_cons, if_neg (by simp [hk])]
      rw [e] at h0
      exact continues (front := .nil) (u := 0) (n := 1) (k := 0) (m := maxDepth text + maxDepth text0) h0 h rfl rfl
        (Nat.le_add_left _ _) (Nat.le_add_right _ _) rfl
    | true =>
      have e : (Forest.tok .nil k).shape = [] := by simp [Forest.shape, hk]
      rw [← e]
      refine continues (u := 4) (n := 2) (k := 1) (m := maxDepth text + maxDepth text0) h0 h (annot_skip _) rfl
        (Nat.le_add_left _ _) (Nat.le_add_right _ _) ?_
      have e2 : annotSig ((k, t) :: ts) = annotSig ts := by
        rw [annotSig, if_pos hk]
      rw [e2]
      exact loop_trivia _ hk _ _ _ _ _

theorem Continues.same {p q r : Parsed} {front : List Shape} (h1 : Continues [] p q) (h2 : Continues front p r) :
    Continues front q r := by
  cases p with
  | ok k tree errors =>
    obtain ⟨t1, e1, rfl, h3, h4⟩ := h1
    obtain ⟨t2, e2, rfl, h5, h6⟩ := h2
    exact ⟨t2, e2, rfl, by rw [h5, h3]; rfl, h6.trans h4.symm⟩
  | panic w =>
    have h1 : q = .panic w := h1
    have h2 : r = .panic w := h2
    rw [h1, h2]; rfl
  | outOfFuel => exact absurd h1 id

theorem Continues.trans {p q r : Parsed} {front : List Shape} (h1 : Continues [] p q) (h2 : Continues front q r) :
    Continues front p r := by
  cases p with
  | ok k tree errors =>
    obtain ⟨t1, e1, rfl, h3, h4⟩ := h1
    obtain ⟨t2, e2, rfl, h5, h6⟩ := h2
    exact ⟨t2, e2, rfl, by rw [h5, h3]; rfl, h6.trans h4⟩
  | panic w =>
    have h1 : q = .panic w := h1
    subst h1
    exact h2
  | outOfFuel => exact absurd h1 id

theorem SameOutcome.continues {p q : Parsed} (h : SameOutcome p q) : Continues [] p q := by
  cases p <;> exact h

theorem Continues.sameOutcome {p q : Parsed} (h : Continues [] p q) : SameOutcome p q := by
  cases p <;> exact h

theorem laidOut_skip {ts lead : List (Kind × Text)} {ps : List Layout.Laid} (h : Layout.LaidOut ts lead ps) :
    skip ts = Layout.flat ps := by
  rw [h.tokens]
  have hl := h.lead
  generalize lead = l at hl
  induction l with
  | nil =>
    cases ps with
    | nil => rfl
    | cons p ps =>
      show List.dropWhile _ (p.tok :: _) = p.tok :: _
      rw [List.dropWhile_cons, if_neg]
      rw [h.toks p List.mem_cons_self]
      exact Bool.false_ne_true
  | cons x l ih =>
    show List.dropWhile _ (x :: (l ++ _)) = _
    rw [List.dropWhile_cons, if_pos (hl x List.mem_cons_self)]
    exact ih fun y hy => hl y (List.mem_cons_of_mem _ hy)

/-- **C58, partial.**  Whitespace and comments can be inserted, changed and removed at the start of a text and between any two
tokens, with the exceptions in `Reformatted`, without changing the syntax tree, up to whitespace and comments, or the
error messages, unless one of the two texts makes the parser run out of lookups. -/
theorem parse_reformatted_anywhere_partial {text text' : Text} {ts ts' lead lead' : List (Kind × Text)}
    {ps ps' : List Layout.Laid} (h : Lexes text ts) (h' : Lexes text' ts') (hl : Layout.LaidOut ts lead ps)
    (hl' : Layout.LaidOut ts' lead' ps') (hr : Layout.Reformatted none ps ps') :
    parse text = .panic .stuck ∨ parse text' = .panic .stuck ∨ SameOutcome (parse text) (parse text') := by
  obtain ⟨text0, h0⟩ := lexes_skip h
  obtain ⟨text0', h0'⟩ := lexes_skip h'
  rcases continues_trivia h h0 with e | c1
  · exact .inl e
  · rcases continues_trivia h' h0' with e | c2
    · exact .inr (.inl e)
    · refine .inr (.inr ?_)
      rw [laidOut_skip hl] at h0
      rw [laidOut_skip hl'] at h0'
      have c3 := parse_reformatted_partial (lead := []) (lead' := []) h0 h0' ⟨rfl, by simp, hl.toks, hl.gaps⟩
        ⟨rfl, by simp, hl'.toks, hl'.gaps⟩ rfl hr
      exact (c1.same (c3.continues.trans c2)).sameOutcome

/-! ### The end of a valid file -/

/-- Every `::` is followed by an identifier. -/
def Joined : List (Kind × Text) → Prop
  | [] => True
  | x :: ts => (x.1 = COLON_COLON → headKind ts = IDENT) ∧ Joined ts

/-- Every `::` is followed by a name. -/
def JoinedSyms : List Sym → Prop
  | [] => True
  | s :: r => (s = .tok COLON_COLON → ∃ x r', r = .nt x :: r' ∧ (x = .name ∨ x = .segment ∨ x = .nameRef)) ∧ JoinedSyms r

theorem headKind_append {ts us : List (Kind × Text)} (h : headKind ts = IDENT) : headKind (ts ++ us) = IDENT := by
  cases ts with
  | nil => cases h
  | cons _ _ => exact h

theorem Joined.append {ts us : List (Kind × Text)} (h : Joined ts) (h' : Joined us) : Joined (ts ++ us) := by
  induction ts with
  | nil => exact h'
  | cons x ts ih => exact ⟨fun hk => headKind_append (h.1 hk), ih h.2⟩

theorem rule_joined {x : NT} {k : Option Kind} {rhs : List Sym} (h : Rule x k rhs) : JoinedSyms rhs := by
  cases h with
  | expr_bin hp =>
    refine ⟨by simp, fun he => ?_, by simp, trivial⟩
    cases he
    simp [precedence] at hp
  | _ => simp [JoinedSyms]

theorem derives_joined {syms : List Sym} {ts : List (Kind × Text)} {sh : List Shape} (h : Derives syms ts sh)
    (hs : JoinedSyms syms) : Joined ts ∧
      ∀ x r, syms = .nt x :: r → (x = .name ∨ x = .segment ∨ x = .nameRef) → headKind ts = IDENT := by
  induction h with
  | nil => exact ⟨trivial, nofun⟩
  | tok _ ih =>
    refine ⟨⟨fun hk => ?_, (ih hs.2).1⟩, nofun⟩
    obtain ⟨x, r, rfl, hx⟩ := hs.1 (congrArg Sym.tok hk)
    exact (ih hs.2).2 x r rfl hx
  | hex _ ih => exact ⟨⟨nofun, (ih hs.2).1⟩, nofun⟩
  | nt hr h1 _ ih1 ih2 =>
    refine ⟨(ih1 (rule_joined hr)).1.append (ih2 hs.2).1, ?_⟩
    intro x r e hx
    cases e
    refine headKind_append ?_
    rcases hx with rfl | rfl | rfl
    · cases hr with
      | name => cases h1; rfl
    · cases hr with
      | segment => exact (ih1 (rule_joined .segment)).2 _ _ rfl (.inr (.inr rfl))
    · cases hr with
      | name_ref => cases h1; rfl

/-- The significant tokens of `tv` in a text where `tt` follows. -/
def annotIn (tt : List (Kind × Text)) : List (Kind × Text) → List Tok
  | [] => []
  | x :: ts => if x.1.isTrivia then annotIn tt ts else Tok.of x (ts ++ tt) :: annotIn tt ts

theorem annotSig_in (tv tt : List (Kind × Text)) : annotSig (tv ++ tt) = annotIn tt tv ++ annotSig tt := by
  induction tv with
  | nil => rfl
  | cons x ts ih =>
    simp only [List.cons_append, annotSig, annotIn, ih]
    split <;> rfl

theorem annotIn_pair (tv tt : List (Kind × Text)) : (annotIn tt tv).map Tok.pair = significant tv := by
  induction tv with
  | nil => rfl
  | cons x ts ih =>
    unfold annotIn significant
    rw [List.filter_cons]
    cases h : x.1.isTrivia with
    | true =>
      rw [if_pos rfl, if_neg (by simp only [Kind.isTrivia] at h; simp [h])]
      exact ih
    | false =>
      rw [if_neg (by simp), if_pos (by simp only [Kind.isTrivia] at h; simp [h]), List.map_cons]
      exact congrArg (x :: ·) ih

theorem significant_cons (x : Kind × Text) (ts : List (Kind × Text)) :
    significant (x :: ts) = if x.1.isTrivia then significant ts else x :: significant ts := by
  unfold significant
  rw [List.filter_cons]
  cases h : x.1.isTrivia with
  | true => rw [if_pos rfl, if_neg (by simp only [Kind.isTrivia] at h; simp [h])]
  | false => rw [if_pos (by simp only [Kind.isTrivia] at h; simp [h]), if_neg (by simp)]

theorem all_of_dropWhile {p : Kind × Text → Bool} {l : List (Kind × Text)} (h : l.dropWhile p = []) :
    ∀ z ∈ l, p z = true := by
  induction l with
  | nil => simp
  | cons x l ih =>
    rw [List.dropWhile_cons] at h
    split at h
    · intro z hz
      rcases List.mem_cons.1 hz with rfl | hz
      · assumption
      · exact ih h z hz
    · cases h

/-- What the parser looks at behind the tokens of a valid file that ends with a brace does not depend on the text behind
the file. -/
theorem clean_front {tv : List (Kind × Text)} (tt : List (Kind × Text)) (hs : Spaced tv)
    (hl : tv.getLast?.map (·.1) = some R_BRACE) (hj : Joined (significant tv)) :
    Clean (annotIn tt tv) (annotSig tt) := by
  induction tv with
  | nil => trivial
  | cons x ts ih =>
    cases ts with
    | nil =>
      have hx : x.1 = R_BRACE := by simpa using hl
      have ht : x.1.isTrivia = false := by rw [hx]; rfl
      simp only [annotIn, ht, Bool.false_eq_true, if_false]
      refine ⟨fun h => ?_, fun h => ?_, trivial⟩
      · rcases h with h | h <;> (rw [show (Tok.of x ([] ++ tt)).kind = x.1 from rfl, hx] at h; cases h)
      · rw [show (Tok.of x ([] ++ tt)).kind = x.1 from rfl, hx] at h
        cases h
    | cons y ts =>
      have hl' : (y :: ts).getLast?.map (·.1) = some R_BRACE := by
        rw [List.getLast?_cons_cons] at hl
        exact hl
      rw [significant_cons] at hj
      rw [annotIn]
      cases ht : x.1.isTrivia with
      | true =>
        rw [ht] at hj
        exact ih hs.tail hl' hj
      | false =>
        rw [ht, if_neg (by simp)] at hj
        rw [if_neg (by simp)]
        refine ⟨fun hk => ?_, fun hk => ?_, ih hs.tail hl' hj.2⟩
        · rw [← annotSig_in, kind0_annotSig, ← skip_of_whitespace]
          · rfl
          · have h1 := hs.comment [] x.1 x.2 (y :: ts) rfl hk
            rw [List.dropWhile_append]
            have hne : (List.dropWhile (fun x => x.1 == WHITESPACE) (y :: ts)).isEmpty = false := by
              cases he : (List.dropWhile (fun x : Kind × Text => x.1 == WHITESPACE) (y :: ts)).isEmpty with
              | false => rfl
              | true =>
                exfalso
                rw [List.isEmpty_iff] at he
                have hall := all_of_dropWhile he
                obtain ⟨z, hz⟩ : ∃ z, (y :: ts).getLast? = some z := by
                  cases h : (y :: ts).getLast? with
                  | none => simp at h
                  | some z => exact ⟨z, rfl⟩
                rw [hz] at hl'
                have h2 := hall z (List.mem_of_getLast? hz)
                have h3 : z.1 = R_BRACE := by simpa using hl'
                rw [h3] at h2
                cases h2
            rw [if_neg (by rw [hne]; simp)]
            cases hd : List.dropWhile (fun x : Kind × Text => x.1 == WHITESPACE) (y :: ts) with
            | nil => rw [hd] at hne; cases hne
            | cons z r => rw [hd] at h1; exact h1
        · have hk : x.1 = COLON_COLON := hk
          obtain ⟨kx, tx⟩ := x
          simp only at hk
          subst hk
          cases ts with
          | nil =>
            exfalso
            have hy : y.1 = R_BRACE := by simpa using hl'
            have := hj.1 rfl
            rw [significant_cons, hy] at this
            simp only [show R_BRACE.isTrivia = false from rfl, Bool.false_eq_true, if_false] at this
            have : y.1 = IDENT := this
            rw [hy] at this
            cases this
          | cons z r => exact hs.path [] tx y z.1 z.2 r rfl

/-! ### Definitions one after the other -/

/-- A definition is read, or the lookups run out. -/
theorem read_def {p : Prog Unit} {a b : Nat} {w : List Tok} {sh : List Shape} (h : Accepts p Any a b w sh)
    (r : List Tok) (hc : Clean w r) (u n : Nat) (i : Forest) (o : List (Forest × Forest)) (hu : u ≤ stepLimit + 1) :
    ∃ N, (∀ m, N ≤ m → run tokenLevel (callN tokenLevel body m) p ⟨w ++ r, u, n, i, o⟩ = .panic .stuck) ∨
      ∃ u' n' i', Grows i sh i' ∧ u' ≤ stepLimit + 1 ∧ ∀ m, N ≤ m →
        run tokenLevel (callN tokenLevel body m) p ⟨w ++ r, u, n, i, o⟩ = .ok () ⟨r, u', n', i', o⟩ := by
  obtain ⟨_, s', hr, u', n', i', rfl, hg⟩ := h r u n i o hc trivial
    (fun _ s => ∃ u' n' i', s = ⟨r, u', n', i', o⟩ ∧ Grows i sh i') fun _ u' n' i' _ _ hg => ⟨u', n', i', rfl, hg⟩
  by_cases hl : u' ≤ stepLimit + 1
  · obtain ⟨N, hN⟩ := hr.limited hl
    exact ⟨N, .inr ⟨u', n', i', hg, hl, hN⟩⟩
  · obtain ⟨N, hN⟩ := hr.overrun hu (Nat.lt_of_not_le hl)
    exact ⟨N, .inl hN⟩

/-- The loop reads the definitions `w` and goes on, or the lookups run out. -/
def Reads (w : List Tok) (sh : List Shape) : Prop :=
  ∀ r u n i o, Clean w r → u ≤ stepLimit + 1 → ∃ N k,
    (∀ m, N ≤ m → run tokenLevel (callN tokenLevel body (m + k)) rootLoopBody ⟨w ++ r, u, n, i, o⟩ = .panic .stuck) ∨
      ∃ u' n' i', Grows i sh i' ∧ u' ≤ stepLimit + 1 ∧ ∀ m, N ≤ m →
        run tokenLevel (callN tokenLevel body (m + k)) rootLoopBody ⟨w ++ r, u, n, i, o⟩ =
          run tokenLevel (callN tokenLevel body m) rootLoopBody ⟨r, u', n', i', o⟩

theorem reads_nil : Reads [] [] := fun _ u n i _ _ hu =>
  ⟨0, 0, .inr ⟨u, n, i, ⟨by simp, rfl⟩, hu, fun _ _ => rfl⟩⟩

theorem run_at_token (c : (f : Fn) → TState → Out TState f.Res) {α : Type} (k : Kind) (f : Bool → Prog α) (s : TState) :
    run tokenLevel c (at_ k >>= f) s =
      if s.used ≤ stepLimit then run tokenLevel c (f (kind0 s.toks == k)) { s with used := s.used + 1 }
      else .panic .stuck := by
  show Out.bind (tNthLimited 0 s) _ = _
  simp only [tNthLimited, tNth, Nat.zero_le, if_true]
  split <;> rfl

/-- One definition, behind `j` lookups. -/
theorem reads_step {p : Prog Unit} {a b j : Nat} {w v : List Tok} {sh shv : List Shape} (h : Accepts p Any a b w sh)
    (h' : Reads v shv)
    (hp : ∀ r u n i o c, run tokenLevel c rootLoopBody ⟨w ++ r, u, n, i, o⟩ =
      if u + j ≤ stepLimit + 1 then
        (run tokenLevel c p ⟨w ++ r, u + j, n, i, o⟩).bind fun _ s => c .rootLoop s
      else .panic .stuck) :
    Reads (w ++ v) (sh ++ shv) := by
  intro r u n i o hc hu
  have hc1 : Clean w (v ++ r) := CleanTo.clean (c := r.length) (by simp) (by
    have := hc.to
    rwa [List.append_assoc] at this)
  have hc2 : Clean v r := CleanTo.clean (c := r.length) (Nat.le_refl _) (by
    have := hc.to
    rw [List.append_assoc] at this
    exact this.append)
  rw [List.append_assoc]
  by_cases hj : u + j ≤ stepLimit + 1
  · simp only [hp, if_pos hj]
    obtain ⟨N, hN | ⟨u1, n1, i1, g1, hu1, hN⟩⟩ := read_def h (v ++ r) hc1 (u + j) n i o hj
    · refine ⟨N, 0, .inl fun m hm => ?_⟩
      rw [hN _ (by omega)]
      rfl
    · obtain ⟨N2, k2, h2⟩ := h' r u1 n1 i1 o hc2 hu1
      refine ⟨N + N2, k2 + 1, ?_⟩
      rcases h2 with h2 | ⟨u2, n2, i2, g2, hu2, h2⟩
      · refine .inl fun m hm => ?_
        rw [hN _ (by omega)]
        exact h2 m (by omega)
      · refine .inr ⟨u2, n2, i2, ⟨by rw [g2.shape, g1.shape, List.append_assoc], g2.errs.trans g1.errs⟩, hu2,
          fun m hm => ?_⟩
        rw [hN _ (by omega)]
        exact h2 m (by omega)
  · simp only [hp, if_neg hj]
    exact ⟨0, 0, .inl fun m _ => trivial⟩

theorem bind_ok {α : Type} (x : Out TState α) : (x.bind fun a s => Out.ok a s) = x := by
  cases x <;> rfl

/-- Goes through the lookups at the start of the loop. -/
local macro "lookups" : tactic =>
  `(tactic| (
    intro r u n i o c
    unfold rootLoopBody
    have call_eq : ∀ s, run tokenLevel c (call Fn.rootLoop) s = c Fn.rootLoop s := fun s => bind_ok _
    simp only [run_at_token, kind0, List.cons_append, beq_self_eq_true, if_true, if_false, Bool.not_false,
      show (MODULE_KW == EOF) = false from rfl, show (SCRIPT_KW == EOF) = false from rfl,
      show (ADDRESS_KW == EOF) = false from rfl, show (SCRIPT_KW == MODULE_KW) = false from rfl,
      show (ADDRESS_KW == MODULE_KW) = false from rfl, show (ADDRESS_KW == SCRIPT_KW) = false from rfl, Bool.false_eq_true]
    simp only [run_bind_eq, call_eq]
    repeat' split
    all_goals first | rfl | (exfalso; omega)))

theorem reads_module {w v : List Tok} {sh shv : List Shape} (h : Acc .moduleDef w sh) (h' : Reads v shv) :
    Reads (w ++ v) (sh ++ shv) := by
  obtain ⟨⟨⟨k, t, l1, l2⟩, w, rfl, hk⟩, h⟩ := h
  obtain rfl : k = .MODULE_KW := by simpa using hk
  refine reads_step (j := 2) h h' ?_
  lookups

theorem reads_script {w v : List Tok} {sh shv : List Shape} (h : Acc .scriptDef w sh) (h' : Reads v shv) :
    Reads (w ++ v) (sh ++ shv) := by
  obtain ⟨⟨⟨k, t, l1, l2⟩, w, rfl, hk⟩, h⟩ := h
  obtain rfl : k = .SCRIPT_KW := by simpa using hk
  refine reads_step (j := 3) h h' ?_
  lookups

theorem reads_address {w v : List Tok} {sh shv : List Shape} (h : Acc .addressDef w sh) (h' : Reads v shv) :
    Reads (w ++ v) (sh ++ shv) := by
  obtain ⟨⟨⟨k, t, l1, l2⟩, w, rfl, hk⟩, h⟩ := h
  obtain rfl : k = .ADDRESS_KW := by simpa using hk
  refine reads_step (j := 4) h h' ?_
  lookups

theorem Parts.mono {A B : NT → List Tok → List Shape → Prop} (hAB : ∀ x w sh, A x w sh → B x w sh) {syms : List Sym}
    {w : List Tok} {sh : List Shape} (h : Parts A syms w sh) : Parts B syms w sh := by
  induction h with
  | nil => exact .nil
  | tok _ ih => exact .tok ih
  | hex _ ih => exact .hex ih
  | nt h _ ih => exact .nt (hAB _ _ _ h) ih

/-- The loop reads every derivable file and goes on. -/
theorem reads_file {w : List Tok} {ts : List (Kind × Text)} {sh : List Shape}
    (h : Derives [.nt .file] ts sh) (hw : w.map Tok.pair = ts) : Reads w sh := by
  have hp := parts_of_derives (A := fun x w sh => Acc x w sh ∧ (x = .file → Reads w sh)) (fun x k rhs w sh hr hp => by
    refine ⟨acc_rule hr (hp.mono fun _ _ _ h => h.1), ?_⟩
    rintro rfl
    cases hr with
    | file_nil => cases hp; exact reads_nil
    | file_module =>
      cases hp with
      | nt h1 h2 =>
        cases h2 with
        | nt h2 h3 =>
          cases h3
          simp only [List.append_nil, wrap]
          exact reads_module h1.1 (h2.2 rfl)
    | file_script =>
      cases hp with
      | nt h1 h2 =>
        cases h2 with
        | nt h2 h3 =>
          cases h3
          simp only [List.append_nil, wrap]
          exact reads_script h1.1 (h2.2 rfl)
    | file_address =>
      cases hp with
      | nt h1 h2 =>
        cases h2 with
        | nt h2 h3 =>
          cases h3
          simp only [List.append_nil, wrap]
          exact reads_address h1.1 (h2.2 rfl)) h w hw
  cases hp with
  | nt h1 h2 =>
    cases h2
    simpa only [List.append_nil] using h1.2 rfl

theorem behind_valid {v t t0 : Text} {tv tt : List (Kind × Text)} {shapes : List Shape} (h0 : Lexes t0 (skip tt))
    (c1 : Continues [] (parse t0) (parse t))
    (hv : Lexes (v ++ t) (tv ++ tt)) (hd : Derives [.nt .file] (significant tv) shapes) (hs : Spaced tv)
    (hl : tv.getLast?.map (·.1) = some R_BRACE) :
    parse (v ++ t) = .panic .stuck ∨ Continues shapes (parse t) (parse (v ++ t)) := by
  have hc := clean_front tt hs hl (derives_joined hd ⟨by simp, trivial⟩).1
  have hr := reads_file hd (annotIn_pair tv tt)
  have key : ∃ N k, (∀ m, N ≤ m → run tokenLevel (callN tokenLevel body (m + k)) rootLoopBody
        ⟨annot (tv ++ tt), 0, 1, .nil, [(.nil, .nil)]⟩ = .panic .stuck) ∨
      ∃ u n front, front.shape = shapes ∧ front.errs = 0 ∧ ∀ m, N ≤ m →
        run tokenLevel (callN tokenLevel body (m + k)) rootLoopBody
          ⟨annot (tv ++ tt), 0, 1, .nil, [(.nil, .nil)]⟩ =
        run tokenLevel (callN tokenLevel body m) rootLoopBody ⟨annotSig tt, u, n, front, [(.nil, .nil)]⟩ := by
    cases tv with
    | nil => cases hl
    | cons x tl =>
      obtain ⟨k, txt⟩ := x
      cases hk : k.isTrivia with
      | false =>
        have e : annot ((k, txt) :: tl ++ tt) = annotIn tt ((k, txt) :: tl) ++ annotSig tt := by
          rw [← annotSig_in]
          show annot ((k, txt) :: (tl ++ tt)) = annotSig ((k, txt) :: (tl ++ tt))
          rw [annotSig, if_neg (by simp [hk])]
          rfl
        rw [e]
        obtain ⟨N, k1, h1⟩ := hr (annotSig tt) 0 1 .nil [(.nil, .nil)] hc (Nat.zero_le _)
        refine ⟨N, k1, ?_⟩
        rcases h1 with h1 | ⟨u, n, i, g, _, h1⟩
        · exact .inl h1
        · exact .inr ⟨u, n, i, g.shape, g.errs, h1⟩
      | true =>
        have e1 : annotIn tt ((k, txt) :: tl) = annotIn tt tl := by
          rw [annotIn, if_pos hk]
        have e2 : annot ((k, txt) :: tl ++ tt) = Tok.of (k, txt) (tl ++ tt) :: (annotIn tt tl ++ annotSig tt) := by
          rw [← annotSig_in]
          rfl
        rw [e1] at hr hc
        rw [e2]
        obtain ⟨N, k1, h1⟩ := hr (annotSig tt) 4 2 (.tok .nil k) [(.nil, .nil)] hc (by simp [stepLimit])
        refine ⟨N, k1 + 1, ?_⟩
        have e3 := fun m => loop_trivia (m + k1) hk txt (Tok.of (k, txt) (tl ++ tt)).la1 (Tok.of (k, txt) (tl ++ tt)).la2
          (annotIn tt tl ++ annotSig tt) [(.nil, .nil)]
        rcases h1 with h1 | ⟨u, n, i, g, _, h1⟩
        · exact .inl fun m hm => (e3 m).trans (h1 m hm)
        · refine .inr ⟨u, n, i, ?_, g.errs, fun m hm => (e3 m).trans (h1 m hm)⟩
          rw [g.shape]
          simp [Forest.shape, hk]
  obtain ⟨N, k, h1 | ⟨u, n, front, hsh, herr, h1⟩⟩ := key
  · left
    have f := parse_follows hv (n := N + maxDepth (v ++ t) + k + 1) (by omega)
    rw [root_loop, h1 _ (by omega)] at f
    exact f
  · rcases continues (m := N + maxDepth (v ++ t) + maxDepth t0) h0 hv (annot_skip tt) herr (by omega) (by omega) (h1 _ (by omega))
      with e | c2
    · exact .inl e
    · right
      rw [hsh] at c2
      exact c1.same c2

/-- **C98.**  A valid file in front of a text, up to its last brace, does not change what is made of the text: the trees of the
file come first, then those of the text, and the error messages are those of the text.  Unless one of the two texts makes
the parser run out of lookups. -/
theorem parse_behind_valid {v t : Text} {tv tt : List (Kind × Text)} {shapes : List Shape} (ht : Lexes t tt)
    (hv : Lexes (v ++ t) (tv ++ tt)) (hd : Derives [.nt .file] (significant tv) shapes) (hs : Spaced tv)
    (hl : tv.getLast?.map (·.1) = some R_BRACE) :
    parse t = .panic .stuck ∨ parse (v ++ t) = .panic .stuck ∨ Continues shapes (parse t) (parse (v ++ t)) := by
  obtain ⟨t0, h0⟩ := lexes_skip ht
  rcases continues_trivia ht h0 with e | c1
  · exact .inl e
  · exact .inr (behind_valid h0 c1 hv hd hs hl)

/-- **C98.**  If the text does not begin with whitespace or a comment, it cannot be saved by a valid file in front either: if
it makes the parser panic, it still does. -/
theorem parse_behind_valid_token {v t : Text} {tv tt : List (Kind × Text)} {shapes : List Shape} (ht : Lexes t tt)
    (hf : ∀ x ∈ tt.head?, x.1.isTrivia = false)
    (hv : Lexes (v ++ t) (tv ++ tt)) (hd : Derives [.nt .file] (significant tv) shapes) (hs : Spaced tv)
    (hl : tv.getLast?.map (·.1) = some R_BRACE) :
    parse (v ++ t) = .panic .stuck ∨ Continues shapes (parse t) (parse (v ++ t)) := by
  have e : skip tt = tt := by
    cases tt with
    | nil => rfl
    | cons x tt =>
      unfold skip
      rw [List.dropWhile_cons, if_neg (by simp [hf x rfl])]
  refine behind_valid (t0 := t) (e.symm ▸ ht) ?_ hv hd hs hl
  cases h : parse t with
  | ok k tree errors => exact ⟨tree, errors, rfl, rfl, rfl⟩
  | panic w => rfl
  | outOfFuel => exact absurd h (parse_terminates t)

/-- Witness of `parse_behind_valid_token`. -/
example : ∃ tv tt shapes, Lexes "script { fun }".toList tt ∧ (∀ x ∈ tt.head?, x.1.isTrivia = false) ∧
    Lexes ("module M{}".toList ++ "script { fun }".toList) (tv ++ tt) ∧
    Derives [.nt .file] (significant tv) shapes ∧ Spaced tv ∧ tv.getLast?.map (·.1) = some R_BRACE ∧
    (errorsOf ("module M{}".toList ++ "script { fun }".toList)).map List.length = some 3 := by
  obtain ⟨shapes, hd⟩ := modules_derive 1
  exact ⟨moduleTokens 1, [(.SCRIPT_KW, "script".toList), (.WHITESPACE, " ".toList), (.L_BRACE, "{".toList), (.WHITESPACE, " ".toList),
      (.FUN_KW, "fun".toList), (.WHITESPACE, " ".toList), (.R_BRACE, "}".toList)], shapes,
    lexes_of_check (by decide +kernel), by simp; rfl, lexes_of_check (by decide +kernel), hd, modules_spaced 1, by decide +kernel,
    by decide +kernel⟩

/-- Witness of `parse_behind_valid`: a module in front of a script with mistakes. -/
example : ∃ tv tt shapes, Lexes " script { fun }".toList tt ∧ Lexes ("module M{}".toList ++ " script { fun }".toList) (tv ++ tt) ∧
    Derives [.nt .file] (significant tv) shapes ∧ Spaced tv ∧ tv.getLast?.map (·.1) = some R_BRACE ∧ shapes.length = 1 ∧
    (errorsOf " script { fun }".toList).map List.length = some 3 ∧
    (errorsOf ("module M{}".toList ++ " script { fun }".toList)).map List.length = some 3 := by
  refine ⟨moduleTokens 1, [(.WHITESPACE, " ".toList), (.SCRIPT_KW, "script".toList), (.WHITESPACE, " ".toList), (.L_BRACE, "{".toList), (.WHITESPACE, " ".toList), (.FUN_KW, "fun".toList), (.WHITESPACE, " ".toList), (.R_BRACE, "}".toList)], _,
    lexes_of_check (by decide +kernel), lexes_of_check (by decide +kernel),
    .nt .file_module (.nt .module_plain (.tok (t := "module".toList) (Bin.derives_snoc (derives_name "M".toList)
      (.nt .item_body (.tok (t := "{".toList) (.nt .items_nil .nil (.tok (t := "}".toList) .nil))) .nil)))
      (.nt .file_nil .nil .nil)) .nil, modules_spaced 1, by decide +kernel, rfl, by decide +kernel, by decide +kernel⟩

/-- The parser does run out of lookups on long files: without the clause `parse_behind_valid` would not hold. -/
theorem parse_behind_long : ∃ v : Text, ∃ tv shapes, Lexes (v ++ []) (tv ++ []) ∧ Derives [.nt .file] (significant tv) shapes ∧
    Spaced tv ∧ tv.getLast?.map (·.1) = some R_BRACE ∧ errorsOf [] = some [] ∧ parse (v ++ []) = .panic .stuck := by
  obtain ⟨shapes, hd⟩ := modules_derive 10002
  refine ⟨modules 10002, moduleTokens 10002, shapes, ?_, hd, modules_spaced _, ?_, by decide +kernel, ?_⟩
  · rw [List.append_nil, List.append_nil]
    exact modules_lexes _
  · have : ∀ n, (moduleTokens (n + 1)).getLast?.map (·.1) = some R_BRACE := by
      intro n
      induction n with
      | zero => decide +kernel
      | succ n ih =>
        obtain ⟨x, l, e⟩ : ∃ x l, moduleTokens (n + 1) = x :: l := ⟨_, _, rfl⟩
        rw [moduleTokens, e]
        simp only [List.getLast?_cons_cons]
        rw [← e]
        exact ih
    exact this 10001
  · rw [List.append_nil]
    exact parse_modules_panics _ (by omega)

/-- Witness of `parse_reformatted_anywhere_partial`. -/
example : ∃ (ts ts' lead lead' : List (Kind × Text)) (ps ps' : List Layout.Laid),
    Lexes "module M{fun}".toList ts ∧ Lexes "// a module\n module M{ fun}".toList ts' ∧
    Layout.LaidOut ts lead ps ∧ Layout.LaidOut ts' lead' ps' ∧ Layout.Reformatted none ps ps' ∧ lead.length ≠ lead'.length ∧
    (errorsOf "module M{fun}".toList).isSome ∧ (errorsOf "// a module\n module M{ fun}".toList).isSome := by
  refine ⟨[(.MODULE_KW, "module".toList), (.WHITESPACE, " ".toList), (.IDENT, "M".toList), (.L_BRACE, "{".toList), (.FUN_KW, "fun".toList), (.R_BRACE, "}".toList)],
    [(.COMMENT, "// a module\n".toList), (.WHITESPACE, " ".toList), (.MODULE_KW, "module".toList), (.WHITESPACE, " ".toList), (.IDENT, "M".toList), (.L_BRACE, "{".toList), (.WHITESPACE, " ".toList), (.FUN_KW, "fun".toList),
      (.R_BRACE, "}".toList)], [], [(.COMMENT, "// a module\n".toList), (.WHITESPACE, " ".toList)],
    [⟨(.MODULE_KW, "module".toList), [(.WHITESPACE, " ".toList)]⟩, ⟨(.IDENT, "M".toList), []⟩, ⟨(.L_BRACE, "{".toList), []⟩, ⟨(.FUN_KW, "fun".toList), []⟩, ⟨(.R_BRACE, "}".toList), []⟩],
    [⟨(.MODULE_KW, "module".toList), [(.WHITESPACE, " ".toList)]⟩, ⟨(.IDENT, "M".toList), []⟩, ⟨(.L_BRACE, "{".toList), [(.WHITESPACE, " ".toList)]⟩, ⟨(.FUN_KW, "fun".toList), []⟩, ⟨(.R_BRACE, "}".toList), []⟩],
    lexes_of_check (by decide +kernel), lexes_of_check (by decide +kernel), laidOut_of_check (by decide +kernel),
    laidOut_of_check (by decide +kernel), ?_, by decide, by decide +kernel, by decide +kernel⟩
  repeat' (first | exact .nil | refine .cons (by simp [Layout.Delicate, Layout.HasComment, Layout.next]) (by simp [Layout.ClosesPath]) ?_)

end Verif.Parser
