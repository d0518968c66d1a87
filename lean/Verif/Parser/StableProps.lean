import Verif.Parser.Stable
import Verif.Parser.Samples
import Verif.Lexer.Lines

set_option autoImplicit false

/-!
Property C106: what is written behind a place does not change what is reported in front of it.
-/

namespace Verif.Parser

open Lexer

/-! ### Marks of forests and calls -/

def opNotes (os : List Op) : List (Option String) :=
  os.filterMap fun
    | .token _ _ => some none
    | .error m => some (some m)
    | _ => none

theorem opNotes_append (a b : List Op) : opNotes (a ++ b) = opNotes a ++ opNotes b := List.filterMap_append ..

theorem opNotes_ev (F : Forest) (fp : Option Nat) : evMarks (F.ev fp) = opNotes F.ops := by
  induction F generalizing fp with
  | nil => rfl
  | tok i k ih => simp only [Forest.ev, Forest.ops, evMarks_append, opNotes_append, ih]; rfl
  | err i m ih => simp only [Forest.ev, Forest.ops, evMarks_append, opNotes_append, ih]; rfl
  | tomb i ih =>
    simp only [Forest.ev, Forest.ops, evMarks_append, ih]
    exact List.append_nil _
  | node i k pre kids ih1 ih2 ih3 =>
    simp only [Forest.ev, Forest.ops]
    rw [show Event.start k fp :: (kids.ev none ++ [Event.finish]) = [Event.start k fp] ++ (kids.ev none ++ [Event.finish]) from rfl,
      show Op.startNode k :: (pre.ops ++ (kids.ops ++ [Op.finishNode])) = [Op.startNode k] ++ (pre.ops ++ (kids.ops ++ [Op.finishNode])) from rfl]
    simp only [evMarks_append, opNotes_append, ih1, ih2, ih3]
    rfl

theorem opNotes_count (os : List Op) : (opNotes os).count none = (opKinds os).length := by
  induction os with
  | nil => rfl
  | cons o os ih =>
    cases o with
    | startNode k => exact ih
    | finishNode => exact ih
    | token k n =>
      show (none :: opNotes os).count none = (opKinds os).length + 1
      rw [List.count_cons_self, ih]
    | error m =>
      show (some m :: opNotes os).count none = (opKinds os).length
      rw [List.count_cons_of_ne (by intro h; cases h), ih]

/-- The messages behind at most `K` tokens, if `n` have been read. -/
def early (K : Nat) : Nat → List (Option String) → List String
  | _, [] => []
  | n, some m :: r => if n ≤ K then m :: early K n r else early K n r
  | n, none :: r => early K (n + 1) r

theorem early_late (K n : Nat) (h : K < n) (r : List (Option String)) : early K n r = [] := by
  induction r generalizing n with
  | nil => rfl
  | cons x r ih =>
    cases x with
    | none => exact ih (n + 1) (by omega)
    | some m => rw [early, if_neg (by omega)]; exact ih n h

theorem early_append (K n : Nat) (a b : List (Option String)) :
    early K n (a ++ b) = early K n a ++ early K (n + a.count none) b := by
  induction a generalizing n with
  | nil => rfl
  | cons x a ih =>
    cases x with
    | none =>
      rw [List.cons_append, early, ih, early, List.count_cons_self]
      congr 2
      omega
    | some m =>
      rw [List.cons_append, early, ih, early, List.count_cons_of_ne (by intro h; cases h)]
      split <;> rfl

theorem early_prefix (K : Nat) (m a : List (Option String)) (h : m <+: a) (hK : K < m.count none) :
    early K 0 a = early K 0 m := by
  obtain ⟨b, rfl⟩ := h
  rw [early_append, early_late K _ (by omega) b, List.append_nil]

/-! ### Where the tree sink stands -/

theorem op_silent {s s' : Sink} {o : Op} (h : s.op o = some s') (ho : o.msgs = []) : s'.errors = s.errors := by
  have h1 : s.ops [o] = some s' := by simp only [Sink.ops, h, Option.bind_some]
  obtain ⟨more, hm⟩ := op_errors h
  have h2 := (open_ops h1).2
  simp only [List.flatMap_cons, ho, List.flatMap_nil, List.append_nil] at h2
  have h3 := congrArg List.length h2
  simp only [messages, List.length_map, hm, List.length_append] at h3
  rw [hm, List.length_eq_zero_iff.1 (show more.length = 0 by omega), List.append_nil]

theorem sink_stands {text : Text} {toks : List Lexer.Token} {kids : Forest} {ts : List (Kind × Text)} {s1 s2 : Sink}
    (rd : Ready text toks kids ts s1) (hw : kids.Wf) {a b : List Op} (hab : kids.ops = a ++ b) (ha : s1.ops a = some s2) :
    ∃ before after, ts = before ++ after ∧ s2.textPos = byteLen (before.map Prod.snd).flatten ∧
      (opKinds b).length = if before = [] then (annot after).length else (annotSig after).length := by
  have hdep := depth_forest kids 0 []
  rw [List.append_nil, hab, depth_append] at hdep
  obtain ⟨d, hd, _⟩ := Option.bind_eq_some_iff.1 hdep
  have hok := opOk_forest kids hw
  rw [hab] at hok
  have hpend := rd.pending
  rw [hab, opKinds_append] at hpend
  have hst : Starts [] ts a := by
    intro hp x hx hx1 o ho
    refine rd.starts hp x hx hx1 o ?_
    rw [hab]
    cases a with
    | nil => cases ho
    | cons y a => exact ho
  obtain ⟨s2', pre, post, ext, e2, i2, hsplit, p2, _⟩ :=
    walk a (opKinds b) (fun o ho => hok o (List.mem_append_left _ ho)) (ext := [])
      (base := [(.SOURCE_FILE, .nil)]) (d := d) rd.inv hpend (by rw [rd.state]; decide) hst rd.opens hd
  rw [e2] at ha
  cases ha
  exact ⟨pre, post, hsplit.symm, i2.textPos, pending_length p2⟩

theorem annotSig_reads (ts : List (Kind × Text)) : (annotSig ts).length = (significant ts).length := by
  rw [← annotSig_pair, List.length_map]

/-- The number of tokens the parser reads of `p`: it reads the first token even if it is trivia. -/
def readOf (p : List (Kind × Text)) : Nat := if p = [] then 0 else 1 + (significant p.tail).length

theorem annot_reads (p q : List (Kind × Text)) (hq : p ≠ []) :
    (annot (p ++ q)).length = readOf p + (significant q).length := by
  cases p with
  | nil => exact absurd rfl hq
  | cons x p =>
    show (annotSig (p ++ q)).length + 1 = _
    rw [annotSig_reads, significant_append, List.length_append]
    simp only [readOf, List.cons_ne_nil, if_false, List.tail_cons]
    omega

theorem byteLen_gt {t : Text} (h : t ≠ []) : 0 < byteLen t := by
  cases t with
  | nil => exact absurd rfl h
  | cons c t =>
    rw [byteLen_cons]
    have := Char.utf8Size_pos c
    omega

theorem texts_joined (a b : List (Kind × Text)) : byteLen ((a ++ b).map Prod.snd).flatten
    = byteLen (a.map Prod.snd).flatten + byteLen (b.map Prod.snd).flatten := by
  rw [List.map_append, List.flatten_append, byteLen_append]

/-- Whether the sink stands at the token `w` or in front of it shows in how many tokens are left. -/
theorem stands_in_front {p q before after : List (Kind × Text)} {w : Kind × Text} {n left : Nat}
    (hw : w.1.isTrivia = false) (hw2 : w.2 ≠ []) (hs : p ++ w :: q = before ++ after)
    (hl : left = if before = [] then (annot after).length else (annotSig after).length)
    (hn : n + left = (annot (p ++ w :: q)).length) :
    byteLen (before.map Prod.snd).flatten ≤ byteLen (p.map Prod.snd).flatten ↔ n ≤ readOf p := by
  have hsig : ∀ r : List (Kind × Text), (significant (w :: r)).length = 1 + (significant r).length := by
    intro r
    rw [← annotSig_reads, ← annotSig_reads, annotSig, if_neg (by simp [hw])]
    exact Nat.add_comm _ _
  by_cases hb : before = []
  · subst hb
    rw [if_pos rfl] at hl
    have : after = p ++ w :: q := hs.symm
    subst this
    constructor
    · intro _; omega
    · intro _; exact Nat.zero_le _
  · rw [if_neg hb, annotSig_reads] at hl
    have hne : p ++ [w] ≠ [] := by simp
    rcases List.append_eq_append_iff.1 hs with ⟨c, hc, hr⟩ | ⟨c, hc, hr⟩
    · cases c with
      | nil =>
        simp only [List.append_nil] at hc
        subst hc
        rw [List.nil_append] at hr
        rw [annot_reads _ _ hb, hr] at hn
        constructor
        · intro _; omega
        · intro _; exact Nat.le_refl _
      | cons x c =>
        rw [List.cons_append] at hr
        obtain ⟨rfl, rfl⟩ := List.cons.inj hr
        rw [hc]
        constructor
        · intro h
          rw [texts_joined] at h
          have h3 : 0 < byteLen ((w :: c).map Prod.snd).flatten := by
            show 0 < byteLen (w.2 ++ _)
            rw [byteLen_append]
            have := byteLen_gt hw2
            omega
          omega
        · intro h
          exfalso
          by_cases hp : p = []
          · subst hp
            simp only [List.nil_append] at hn h
            have : (annot (w :: (c ++ after))).length = 1 + (significant (c ++ after)).length := by
              show (annotSig (c ++ after)).length + 1 = _
              rw [annotSig_reads]; omega
            rw [this, significant_append, List.length_append] at hn
            have h0 : readOf ([] : List (Kind × Text)) = 0 := rfl
            omega
          · rw [annot_reads _ _ hp, hsig, significant_append, List.length_append] at hn
            omega
    · -- `before` is a proper beginning of `p`
      subst hc
      rw [hr] at hl
      have hp : before ++ c ≠ [] := by simp [hb]
      rw [annot_reads _ _ hp] at hn
      rw [significant_append, List.length_append] at hl
      constructor
      · intro _; omega
      · intro _; rw [texts_joined]; omega

/-- The errors in front of the token `w` are those the parser reports before it reads `w`. -/
theorem errors_early {text : Text} {toks : List Lexer.Token} {kids : Forest} {p q : List (Kind × Text)} {w : Kind × Text}
    {s1 sink : Sink} (rd : Ready text toks kids (p ++ w :: q) s1) (hwf : kids.Wf) (hw : w.1.isTrivia = false) (hw2 : w.2 ≠ [])
    (hops : (s1.ops (kids.ops ++ [.finishNode])) = some sink) (b a : List Op) (hab : kids.ops = a ++ b) (s2 : Sink)
    (ha : s1.ops a = some s2) : ∃ more, sink.errors = s2.errors ++ more ∧
      (more.filter fun e => e.offset ≤ byteLen (p.map Prod.snd).flatten).map SyntaxError.msg =
        early (readOf p) (opKinds a).length (opNotes b) := by
  induction b generalizing a s2 with
  | nil =>
    rw [List.append_nil] at hab
    rw [hab, ops_append, ha] at hops
    have hops : (s2.op .finishNode).bind some = some sink := hops
    obtain ⟨s3, h3, h4⟩ := Option.bind_eq_some_iff.1 hops
    cases h4
    exact ⟨[], by rw [op_silent h3 rfl, List.append_nil], rfl⟩
  | cons o b ih =>
    have hab' : kids.ops = (a ++ [o]) ++ b := by rw [hab, List.append_assoc]; rfl
    have hstep : ∃ s3, s2.op o = some s3 := by
      rw [hab, List.append_assoc, ops_append, ha] at hops
      have hops : ((s2.op o).bind fun s => s.ops (b ++ [.finishNode])) = some sink := hops
      obtain ⟨s3, h3, _⟩ := Option.bind_eq_some_iff.1 hops
      exact ⟨s3, h3⟩
    obtain ⟨s3, h3⟩ := hstep
    have ha3 : s1.ops (a ++ [o]) = some s3 := by
      rw [ops_append, ha]
      show (s2.op o).bind some = some s3
      rw [h3]; rfl
    obtain ⟨more, hm, he⟩ := ih (a ++ [o]) hab' s3 ha3
    have quiet : o.msgs = [] → sink.errors = s2.errors ++ more := fun ho => by rw [hm, op_silent h3 ho]
    rw [opKinds_append, List.length_append] at he
    cases o with
    | startNode k => exact ⟨more, quiet rfl, he⟩
    | finishNode => exact ⟨more, quiet rfl, he⟩
    | token k n => exact ⟨more, quiet rfl, he⟩
    | error m =>
      have h3 : some (s2.error m) = some s3 := h3
      cases h3
      obtain ⟨before, after, hsp, hpos, hleft⟩ := sink_stands rd hwf hab ha
      have htot := pending_length rd.pending
      rw [if_pos rfl, hab, opKinds_append, List.length_append] at htot
      have key := stands_in_front hw hw2 hsp hleft htot
      refine ⟨⟨m, s2.textPos⟩ :: more, ?_, ?_⟩
      · rw [hm]
        show (s2.errors ++ [⟨m, s2.textPos⟩]) ++ more = _
        rw [List.append_assoc]; rfl
      · show _ = early (readOf p) (opKinds a).length (some m :: opNotes b)
        have he : _ = early (readOf p) (opKinds a).length (opNotes b) := he
        rw [early, ← he, List.filter_cons]
        simp only [hpos]
        by_cases hk : (opKinds a).length ≤ readOf p
        · rw [if_pos hk, if_pos (by simpa using key.2 hk)]
          rfl
        · rw [if_neg hk, if_neg (by simpa using fun h => hk (key.1 h))]

/-! ### From the text to the calls -/

/-- What stands behind a result of the parser. -/
theorem parse_made {text : Text} {kind : Kind} {tree : Green} {errors : List SyntaxError}
    (hp : parse text = .ok kind tree errors) (n : Nat) (hn : maxDepth text ≤ n) :
    ∃ ts l kids s1 sink, Lexes text ts ∧ parseEvents n text = .ok () l ∧ evMarks l.events = opNotes kids.ops ∧
      kids.Wf ∧ Ready text l.lexer.allTokens kids ts s1 ∧ s1.ops (kids.ops ++ [.finishNode]) = some sink ∧
      sink.errors = errors := by
  obtain ⟨_, ts, hl, _⟩ := parse_ok hp
  obtain ⟨lx, hnew, hst⟩ := Stands.new hl
  have hg := root_good hnew (maxDepth text) (Nat.le_refl _)
  have he := run_erases (M := highLevel) (cb := callB highLevel body (maxDepth text))
    (c := callN highLevel body (maxDepth text))
    (fun f s => callB_erases highLevel body (maxDepth text) (maxDepth text) (Nat.le_refl _) f s) root
    (HState.initial lx, maxDepth text)
  have hlow := highLevel_agree.run (callN_agree highLevel_agree body (maxDepth text)) root (HState.initial lx)
    (PState.initial lx) ⟨rfl, rfl, rfl, rfl, trivial, trivial⟩
  generalize run (budgeted highLevel) (callB highLevel body (maxDepth text)) root
    (HState.initial lx, maxDepth text) = ob at hg he
  rcases he with rfl | he
  · exact absurd hg id
  · simp only at he
    rw [he] at hlow
    cases ob with
    | ok a s =>
      obtain ⟨h, b⟩ := s
      obtain ⟨l, e3, rep⟩ := hlow
      have fin : Finished text h := hg
      obtain ⟨kids, hi⟩ := fin.tree
      obtain ⟨ops, sink, tree', errors', ts', h1, h2, h3, h4, h5, h6⟩ := build_tree fin rep
      obtain ⟨ts'', s1, hl'', rd⟩ := sink_ready fin rep hi
      cases hl.unique hl''
      have hev : l.events = (Forest.node .nil .SOURCE_FILE .nil kids).ev none := by
        rw [rep.events, fin.outer, hi]; rfl
      have hwf : (Forest.node .nil .SOURCE_FILE .nil kids).Wf := by
        have := rep.wf
        rwa [hi] at this
      rw [hev, process_forest _ hwf] at h1
      cases h1
      have e4 : parseEvents (maxDepth text) text = .ok () l := by
        unfold parseEvents
        rw [hnew]
        exact e3
      have e5 : parse text = .ok .SOURCE_FILE tree' errors' := by
        unfold parse parseWithDepth
        rw [e4]
        simp only [hev, process_forest _ hwf, h3, h4]
        rfl
      rw [e5] at hp
      cases hp
      refine ⟨ts, l, kids, s1, sink, hl, by rw [parseEvents_depth text n hn]; exact e4, ?_, hwf.2.2.2.2, rd, ?_,
        (open_finish h4).2.symm⟩
      · rw [hev, opNotes_ev]
        show opNotes ([.startNode .SOURCE_FILE] ++ ([] ++ (kids.ops ++ [.finishNode]))) = _
        simp only [opNotes_append, List.nil_append]
        exact List.append_nil _
      · have h3 : ((Sink.new text l.lexer.allTokens).startNode .SOURCE_FILE).bind (fun s => s.ops (kids.ops ++ [.finishNode]))
            = some sink := h3
        rw [rd.start] at h3
        exact h3
    | panic w =>
      have e3 : run lowLevel (callN lowLevel body (maxDepth text)) root (PState.initial lx) = .panic w := by
        rcases hg with rfl | rfl | rfl <;> exact hlow
      unfold parse parseWithDepth parseEvents at hp
      rw [hnew] at hp
      simp only [PState.initial] at e3
      simp only [e3] at hp
      cases hp
    | outOfFuel => exact absurd hg id

/-! ### The common tokens -/

theorem headKind_common (f : List (Kind × Text)) (x : Kind × Text) (hx : x.1 ≠ .WHITESPACE) (r r' : List (Kind × Text)) :
    headKind ((f ++ x :: r).dropWhile (·.1 == .WHITESPACE)) = headKind ((f ++ x :: r').dropWhile (·.1 == .WHITESPACE)) := by
  induction f with
  | nil =>
    have : (x.1 == Kind.WHITESPACE) = false := by simpa using hx
    simp only [List.nil_append, List.dropWhile_cons, this]
    rfl
  | cons z f ih =>
    simp only [List.cons_append, List.dropWhile_cons]
    split
    · exact ih
    · rfl

theorem tok_common (z x y1 y2 : Kind × Text) (f a1 a2 : List (Kind × Text)) (hx : x.1 ≠ .WHITESPACE) (hy : y1.1 = y2.1) :
    Tok.of z (f ++ x :: y1 :: a1) = Tok.of z (f ++ x :: y2 :: a2) := by
  unfold Tok.of
  rw [headKind_common f x hx (y1 :: a1) (y2 :: a2)]
  have : headKind ((f ++ x :: y1 :: a1).drop 1) = headKind ((f ++ x :: y2 :: a2).drop 1) := by
    match f with
    | [] => exact hy
    | [_] => rfl
    | _ :: _ :: _ => rfl
  rw [this]

theorem annotSig_common (f : List (Kind × Text)) (x y1 y2 : Kind × Text) (a1 a2 : List (Kind × Text)) (hx : x.1 ≠ .WHITESPACE)
    (hy : y1.1 = y2.1) : ∃ c, c.length = (significant f).length ∧ annotSig (f ++ x :: y1 :: a1) = c ++ annotSig (x :: y1 :: a1) ∧
      annotSig (f ++ x :: y2 :: a2) = c ++ annotSig (x :: y2 :: a2) := by
  induction f with
  | nil => exact ⟨[], rfl, rfl, rfl⟩
  | cons z f ih =>
    obtain ⟨c, hc, h1, h2⟩ := ih
    cases hz : z.1.isTrivia with
    | true =>
      refine ⟨c, ?_, ?_, ?_⟩
      · rw [hc, ← annotSig_reads, ← annotSig_reads, annotSig, if_pos hz]
      · rw [List.cons_append, annotSig, if_pos hz, h1]
      · rw [List.cons_append, annotSig, if_pos hz, h2]
    | false =>
      refine ⟨Tok.of z (f ++ x :: y1 :: a1) :: c, ?_, ?_, ?_⟩
      · rw [List.length_cons, hc, ← annotSig_reads, ← annotSig_reads, annotSig, if_neg (by simp [hz])]
        rfl
      · rw [List.cons_append, annotSig, if_neg (by simp [hz]), h1]
        rfl
      · rw [List.cons_append, annotSig, if_neg (by simp [hz]), h2, tok_common z x y1 y2 f a1 a2 hx hy]
        rfl

/-! ### C106 -/

/-- **C106.**  Two texts with the same tokens up to and including `x`, and a token of the same kind directly behind it: the
errors reported in front of a token `w` that precedes `x` are the same. -/
theorem errors_in_front_unchanged {text1 text2 : Text} {p m a1 a2 : List (Kind × Text)} {w x y1 y2 : Kind × Text}
    (hl1 : Lexes text1 (p ++ w :: (m ++ x :: y1 :: a1))) (hl2 : Lexes text2 (p ++ w :: (m ++ x :: y2 :: a2)))
    (hw : w.1.isTrivia = false) (hx : x.1 ≠ .WHITESPACE) (hy : y1.1 = y2.1)
    {k1 k2 : Kind} {t1 t2 : Green} {e1 e2 : List SyntaxError}
    (hp1 : parse text1 = .ok k1 t1 e1) (hp2 : parse text2 = .ok k2 t2 e2) :
    (e1.filter fun e => e.offset ≤ byteLen (p.map Prod.snd).flatten).map SyntaxError.msg =
    (e2.filter fun e => e.offset ≤ byteLen (p.map Prod.snd).flatten).map SyntaxError.msg := by
  have hw2 : w.2 ≠ [] := (Steps.kinds hl1 w (by simp)).2
  obtain ⟨ts1, l1, kids1, s1, sink1, g1, ev1, mk1, wf1, rd1, op1, er1⟩ :=
    parse_made hp1 (maxDepth text1 + maxDepth text2) (Nat.le_add_right _ _)
  obtain ⟨ts2, l2, kids2, s2, sink2, g2, ev2, mk2, wf2, rd2, op2, er2⟩ :=
    parse_made hp2 (maxDepth text1 + maxDepth text2) (Nat.le_add_left _ _)
  cases g1.unique hl1
  cases g2.unique hl2
  obtain ⟨more1, hm1, he1⟩ := errors_early rd1 wf1 hw hw2 op1 kids1.ops [] rfl s1 rfl
  obtain ⟨more2, hm2, he2⟩ := errors_early rd2 wf2 hw hw2 op2 kids2.ops [] rfl s2 rfl
  rw [rd1.errors, List.nil_append, er1] at hm1
  rw [rd2.errors, List.nil_append, er2] at hm2
  subst hm1 hm2
  rw [he1, he2, ← mk1, ← mk2]
  show early (readOf p) 0 _ = early (readOf p) 0 _
  obtain ⟨lx1, n1, st1⟩ := Stands.new hl1
  obtain ⟨lx2, n2, st2⟩ := Stands.new hl2
  -- the tokens both runs see alike
  have common : ∃ t c r1 r2, annot (p ++ w :: (m ++ x :: y1 :: a1)) = t :: c ++ r1 ∧
      annot (p ++ w :: (m ++ x :: y2 :: a2)) = t :: c ++ r2 ∧ readOf p < c.length + 1 := by
    have key : ∀ (z : Kind × Text) (f : List (Kind × Text)), ∃ t c r1 r2, annot (z :: (f ++ x :: y1 :: a1)) = t :: c ++ r1 ∧
        annot (z :: (f ++ x :: y2 :: a2)) = t :: c ++ r2 ∧ c.length = (significant f).length := by
      intro z f
      obtain ⟨c, hc, h1, h2⟩ := annotSig_common f x y1 y2 a1 a2 hx hy
      refine ⟨Tok.of z (f ++ x :: y1 :: a1), c, annotSig (x :: y1 :: a1), annotSig (x :: y2 :: a2), ?_, ?_, hc⟩
      · show _ :: annotSig (f ++ x :: y1 :: a1) = _
        rw [h1]; rfl
      · show _ :: annotSig (f ++ x :: y2 :: a2) = _
        rw [h2, ← tok_common z x y1 y2 f a1 a2 hx hy]; rfl
    cases p with
    | nil =>
      obtain ⟨t, c, r1, r2, h1, h2, hc⟩ := key w m
      exact ⟨t, c, r1, r2, h1, h2, Nat.succ_pos _⟩
    | cons z p =>
      obtain ⟨t, c, r1, r2, h1, h2, hc⟩ := key z (p ++ w :: m)
      refine ⟨t, c, r1, r2, ?_, ?_, ?_⟩
      · rw [← h1]; simp
      · rw [← h2]; simp
      · rw [hc, significant_append, List.length_append, ← annotSig_reads (w :: m), annotSig, if_neg (by simp [hw])]
        simp only [readOf, List.cons_ne_nil, if_false, List.tail_cons, List.length_cons]
        omega
  obtain ⟨t, c, r1, r2, h1, h2, hc⟩ := common
  have lock : Lock (c.length + 1) (PState.initial lx1) (PState.initial lx2) :=
    ⟨rfl, rfl, t, c, r1, r2, _, _, st1, h1, st2, h2, Nat.zero_add _⟩
  have side := side_run (fun f s => onlyAdds_callN (maxDepth text1 + maxDepth text2) f s)
    (fun f a b h => side_callN _ (maxDepth text1 + maxDepth text2) f a b h) root _ _ lock
  unfold parseEvents at ev1 ev2
  rw [n1] at ev1
  rw [n2] at ev2
  rcases side with h | ⟨mm, hn, o1, o2⟩
  · rw [(h () l1 () l2 ev1 ev2).2.events]
  · rw [early_prefix _ mm _ (o1 () l1 ev1) (by omega), early_prefix _ mm _ (o2 () l2 ev2) (by omega)]

/-! ### Lines below -/

theorem wsRun_inside (t z : Text) (h : wsRun t < byteLen t) : wsRun (t ++ z) = wsRun t := by
  induction t with
  | nil => exact absurd h (by decide)
  | cons c cs ih =>
    rw [List.cons_append, wsRun, wsRun]
    split
    · rename_i hc
      rw [wsRun, if_pos hc, byteLen_cons, isWs_ascii hc] at h
      rw [ih (by omega)]
    · rfl

theorem newlinePos_inside (t z : Text) (pos : Nat) (h : newlinePos t = some pos) : newlinePos (t ++ z) = some pos := by
  induction t generalizing pos with
  | nil => cases h
  | cons c cs ih =>
    rw [List.cons_append, newlinePos]
    rw [newlinePos] at h
    split
    · rename_i hc
      rw [if_pos hc] at h
      exact h
    · rename_i hc
      rw [if_neg hc] at h
      obtain ⟨q, hq, hq2⟩ := Option.map_eq_some_iff.1 h
      rw [ih q hq, ← hq2]
      rfl

/-- A token that something follows is not changed by a line put below. -/
theorem findToken_above {u r b : Text} {k : Kind} (h : findToken (u ++ r) = some (k, byteLen u))
    (hr : r ≠ [] ∨ k.isTrivia = false) (hu : u ≠ []) : findToken ((u ++ r) ++ '\n' :: b) = some (k, byteLen u) := by
  have hlen : r ≠ [] → byteLen u < byteLen (u ++ r) := fun hr => by
    rw [byteLen_append]
    have := byteLen_gt hr
    omega
  generalize hn : byteLen u = n at h hlen ⊢
  generalize ht : u ++ r = t at h hlen ⊢
  cases t with
  | nil => exact absurd (List.append_eq_nil_iff.1 ht).1 hu
  | cons c cs =>
    cases hc : isWs c with
    | true =>
      unfold findToken at h
      simp only [hc, if_true] at h
      cases h
      rcases hr with hr | hr
      · show findToken (c :: (cs ++ '\n' :: b)) = _
        unfold findToken
        simp only [hc, if_true]
        rw [← List.cons_append, wsRun_inside _ _ (hlen hr)]
      · cases hr
    | false =>
      cases hcm : (c == '/' && startsWith (c :: cs) "//") with
      | true =>
        have hcm' : (c == '/' && startsWith (c :: (cs ++ '\n' :: b)) "//") = true := by
          rw [← List.cons_append, startsWith_local (by decide) (Lines.nl_ws b)]; exact hcm
        unfold findToken at h
        simp only [hc, hcm, Bool.false_eq_true, if_true, if_false] at h
        split at h
        · rename_i pos hp
          show findToken (c :: (cs ++ '\n' :: b)) = _
          unfold findToken
          simp only [hc, hcm', Bool.false_eq_true, if_true, if_false]
          rw [← List.cons_append, newlinePos_inside _ _ pos hp]
          exact h
        · cases h
          rcases hr with hr | hr
          · exact absurd (hlen hr) (Nat.lt_irrefl _)
          · cases hr
      | false => rw [Lines.findToken_line hc hcm]; exact h

/-- The tokens of a text that ends in a token which is no trivia remain if lines are put below. -/
theorem lexes_above {a b : Text} {ta tb : List (Kind × Text)} {x : Kind × Text} (ha : Lexes a (ta ++ [x]))
    (hx : x.1.isTrivia = false) (hb : Lexes ('\n' :: b) tb) : Lexes (a ++ '\n' :: b) (ta ++ x :: tb) := by
  induction ta generalizing a with
  | nil =>
    unfold Lexes at ha
    cases ha with
    | @cons u r k ts _ hu hk hrest =>
      cases hrest
      rw [List.append_nil]
      refine .cons hu ?_ hb
      have := findToken_above hk (.inr hx) hu (b := b)
      simpa using this
  | cons y ta ih =>
    unfold Lexes at ha
    rw [List.cons_append] at ha
    cases ha with
    | @cons u r k ts _ hu hk hrest =>
      have hr : r ≠ [] := by
        rintro rfl
        have := (show Lexes [] (ta ++ [x]) from hrest).unique (.nil _)
        simp at this
      rw [List.append_assoc]
      refine .cons hu ?_ (ih hrest)
      rw [← List.append_assoc]
      exact findToken_above hk (.inl hr) hu

/-- **C106.**  What stands in the lines below does not change the errors reported in front of the last but one token above
them. -/
theorem lines_below_change_nothing {above below1 below2 : Text} {p m : List (Kind × Text)} {w x : Kind × Text}
    (ha : Lexes above (p ++ w :: (m ++ [x]))) (hw : w.1.isTrivia = false) (hx : x.1.isTrivia = false)
    {k1 k2 : Kind} {t1 t2 : Green} {e1 e2 : List SyntaxError}
    (hp1 : parse (above ++ '\n' :: below1) = .ok k1 t1 e1) (hp2 : parse (above ++ '\n' :: below2) = .ok k2 t2 e2) :
    (e1.filter fun e => e.offset ≤ byteLen (p.map Prod.snd).flatten).map SyntaxError.msg =
    (e2.filter fun e => e.offset ≤ byteLen (p.map Prod.snd).flatten).map SyntaxError.msg := by
  have lines : ∀ {b : Text} {k : Kind} {t : Green} {e : List SyntaxError}, parse (above ++ '\n' :: b) = .ok k t e →
      ∃ y rest, y.1 = .WHITESPACE ∧ Lexes (above ++ '\n' :: b) (p ++ w :: (m ++ x :: y :: rest)) := by
    intro b k t e hp
    obtain ⟨_, ts, hl, _⟩ := parse_ok hp
    obtain ⟨_, tb, hb⟩ := Lines.lexes_split hl
    obtain ⟨tb', hb', _⟩ := Lines.space_moves (c := '\n') (.inr (.inl rfl)) hb
    have hall : Lexes (above ++ '\n' :: b) (p ++ w :: (m ++ x :: tb')) := by
      have := lexes_above (ta := p ++ w :: m) (x := x) (by simpa using ha) hx hb'
      simpa using this
    generalize ht : '\n' :: b = t at hb'
    cases hb' with
    | nil => cases ht
    | @cons u r k' ts' _ hu hk _ =>
      refine ⟨(k', u), ts', ?_, by rw [ht] at hall; exact hall⟩
      rw [← ht] at hk
      unfold findToken at hk
      simp only [show isWs '\n' = true from by decide, if_true] at hk
      exact (Prod.mk.inj (Option.some.inj hk)).1.symm
  obtain ⟨y1, r1, hy1, hl1⟩ := lines hp1
  obtain ⟨y2, r2, hy2, hl2⟩ := lines hp2
  exact errors_in_front_unchanged hl1 hl2 hw (by intro h; rw [h] at hx; cases hx) (by rw [hy1, hy2]) hp1 hp2

/-- Witness: two texts that differ in their second line.  An expression is missing in the first, which is reported in
both cases in front of the last but one token of the line. -/
example : Lexes "module M { fun f() { 1 + ; } }".toList
      ([(.MODULE_KW, "module".toList), (.WHITESPACE, " ".toList), (.IDENT, "M".toList), (.WHITESPACE, " ".toList),
        (.L_BRACE, "{".toList), (.WHITESPACE, " ".toList), (.FUN_KW, "fun".toList), (.WHITESPACE, " ".toList),
        (.IDENT, "f".toList), (.L_PAREN, "(".toList), (.R_PAREN, ")".toList), (.WHITESPACE, " ".toList),
        (.L_BRACE, "{".toList), (.WHITESPACE, " ".toList), (.INTEGER_NUMBER, "1".toList), (.WHITESPACE, " ".toList),
        (.PLUS, "+".toList), (.WHITESPACE, " ".toList), (.SEMICOLON, ";".toList), (.WHITESPACE, " ".toList)] ++
        (.R_BRACE, "}".toList) :: ([(.WHITESPACE, " ".toList)] ++ [(.R_BRACE, "}".toList)])) ∧
    errorsOf "module M { fun f() { 1 + ; } }\nscript {".toList = some [⟨"expected expression", 25⟩, ⟨"expected R_BRACE", 39⟩] ∧
    errorsOf "module M { fun f() { 1 + ; } }\nmodule N {}".toList = some [⟨"expected expression", 25⟩] :=
  ⟨lexes_of_check (by decide +kernel), by decide +kernel, by decide +kernel⟩

end Verif.Parser
