import Verif.Parser.MissingGrammar
import Verif.Parser.Samples

set_option autoImplicit false

/-!
C99: no syntax error says that something is missing that stands there.
-/

namespace Verif.Parser

open Lexer Missing

/-! ### From the calls of the tree builder to the messages of the parser -/

/-- The tokens (`none`) and messages of calls. -/
def opSaid (os : List Op) : List (Option String) :=
  os.filterMap fun
    | .token _ _ => some none
    | .error m => some (some m)
    | _ => none

theorem opSaid_append (a b : List Op) : opSaid (a ++ b) = opSaid a ++ opSaid b := by
  unfold opSaid
  rw [List.filterMap_append]

theorem opSaid_forest (F : Forest) : opSaid F.ops = F.said := by
  induction F with
  | nil => rfl
  | tok i k ih => simp only [Forest.ops, Forest.said, opSaid_append, ih]; rfl
  | err i m ih => simp only [Forest.ops, Forest.said, opSaid_append, ih]; rfl
  | tomb i ih => exact ih
  | node i k pre kids ih1 ih2 ih3 =>
    simp only [Forest.ops, Forest.said, opSaid_append, ih1, List.append_assoc]
    show i.said ++ opSaid (pre.ops ++ (kids.ops ++ [.finishNode])) = _
    simp only [opSaid_append, ih2, ih3]
    rw [show opSaid [.finishNode] = [] from rfl, List.append_nil]

theorem opKinds_said (os : List Op) : (opKinds os).length = (opSaid os).count none := by
  induction os with
  | nil => rfl
  | cons o os ih =>
    cases o with
    | startNode k => exact ih
    | finishNode => exact ih
    | token k n =>
      show (opKinds os).length + 1 = (none :: opSaid os).count none
      rw [List.count_cons_self, ih]
    | error m =>
      show (opKinds os).length = (some m :: opSaid os).count none
      rw [List.count_cons_of_ne (by simp), ih]

/-- A call that reports nothing. -/
theorem op_quiet {s s' : Sink} {o : Op} (h : s.op o = some s') (ho : ∀ m, o ≠ .error m) : s'.errors = s.errors := by
  cases o with
  | error m => exact absurd rfl (ho m)
  | token k n => exact (open_token h).2
  | startNode k =>
    change s.startNode k = some s' at h
    unfold Sink.startNode at h
    cases hs : s.state with
    | pendingStart => rw [hs] at h; cases h; rfl
    | pendingFinish =>
      rw [hs] at h
      simp only [Option.bind_eq_some_iff] at h
      obtain ⟨s1, h1, h2⟩ := h
      rw [(open_startNode_go h2).2.2, (open_innerFinish h1).2.2]
    | normal =>
      rw [hs] at h
      exact (open_startNode_go h).2.2
  | finishNode =>
    change s.finishNode = some s' at h
    unfold Sink.finishNode at h
    cases hs : s.state with
    | pendingStart => rw [hs] at h; cases h
    | pendingFinish => rw [hs] at h; exact (open_innerFinish h).2.2
    | normal => rw [hs] at h; cases h; rfl

/-- Each error has been reported by a call, where the text that has been attached then ends. -/
theorem error_source {os : List Op} {s s' : Sink} {e : SyntaxError} (h : s.ops os = some s') (he : e ∈ s'.errors)
    (hn : e ∉ s.errors) : ∃ a msg b s2, os = a ++ .error msg :: b ∧ s.ops a = some s2 ∧ e = ⟨msg, s2.textPos⟩ := by
  induction os generalizing s with
  | nil => cases h; exact absurd he hn
  | cons o os ih =>
    simp only [Sink.ops, Option.bind_eq_some_iff] at h
    obtain ⟨s1, h1, h2⟩ := h
    have further : e ∉ s1.errors →
        ∃ a msg b s2, o :: os = a ++ .error msg :: b ∧ s.ops a = some s2 ∧ e = ⟨msg, s2.textPos⟩ := by
      intro hn'
      obtain ⟨a, msg, b, s2, e1, e2, e3⟩ := ih h2 hn'
      exact ⟨o :: a, msg, b, s2, by rw [e1]; rfl, by simp only [Sink.ops, h1, Option.bind_some, e2], e3⟩
    by_cases ho : ∃ m, o = .error m
    · obtain ⟨m, rfl⟩ := ho
      cases h1
      by_cases hm : e = ⟨m, s.textPos⟩
      · exact ⟨[], m, os, s, rfl, rfl, hm⟩
      · refine further fun hin => ?_
        rcases List.mem_append.1 hin with hin | hin
        · exact hn hin
        · exact hm (List.mem_singleton.1 hin)
    · refine further ?_
      rw [op_quiet h1 fun m hm => ho ⟨m, hm⟩]
      exact hn

theorem annotSig_behind (a b : List (Kind × Text)) : ∃ p, annotSig (a ++ b) = p ++ annotSig b := by
  induction a with
  | nil => exact ⟨[], rfl⟩
  | cons x a ih =>
    obtain ⟨p, hp⟩ := ih
    simp only [List.cons_append, annotSig]
    split
    · exact ⟨p, hp⟩
    · exact ⟨_ :: p, by rw [hp]; rfl⟩

theorem kind0_upcoming (ts : List (Kind × Text)) : kind0 (annotSig ts) = upcoming ts := by
  unfold upcoming
  rw [← annotSig_pair]
  cases annotSig ts <;> rfl

/-- An error is reported behind as many tokens as the parser has read then. -/
theorem error_offset {text : Text} {toks : List Lexer.Token} {kids : Forest} {ts : List (Kind × Text)} {s1 sink : Sink}
    (rd : Ready text toks kids ts s1) (hw : kids.Wf)
    (hops : (Sink.new text toks).ops (Forest.node .nil .SOURCE_FILE .nil kids).ops = some sink) {e : SyntaxError}
    (he : e ∈ sink.errors) :
    ∃ before after a b, ts = before ++ after ∧ e.offset = byteLen (before.map Prod.snd).flatten ∧
      kids.said = a ++ some e.msg :: b ∧ (annot ts).drop (a.count none) = annotSig after := by
  have hops : (Sink.new text toks).ops (.startNode .SOURCE_FILE :: (kids.ops ++ [.finishNode])) = some sink := hops
  simp only [Sink.ops, Sink.op, rd.start, Option.bind_some, ops_append, Option.bind_eq_some_iff] at hops
  obtain ⟨s3, h3, s4, h4, h5⟩ := hops
  cases h5
  rw [op_quiet (o := .finishNode) h4 fun _ h => by cases h] at he
  obtain ⟨a, msg, b, s2, hab, hs2, rfl⟩ := error_source h3 he (by rw [rd.errors]; exact List.not_mem_nil)
  have hdep := depth_forest kids 0 []
  rw [List.append_nil, hab, depth_append] at hdep
  have hdep : (depth 0 a).bind (fun m => depth m (.error msg :: b)) = some 0 := hdep
  obtain ⟨d, hd, _⟩ := Option.bind_eq_some_iff.1 hdep
  have hok := opOk_forest kids hw
  rw [hab] at hok
  have hpend := rd.pending
  rw [hab, opKinds_append] at hpend
  have hst : Starts [] ts a := by
    intro hp x hx hx1 o ho
    refine rd.starts hp x hx hx1 o ?_
    rw [hab]
    cases a with
    | nil => cases ho
    | cons y a => exact ho
  obtain ⟨s2', pre, post, ext, e2, i2, hsplit, p2, n2, o2, d2⟩ :=
    walk a (opKinds (.error msg :: b)) (fun o ho => hok o (List.mem_append_left _ ho)) (ext := [])
      (base := [(.SOURCE_FILE, .nil)]) (d := d) rd.inv hpend (by rw [rd.state]; decide) hst rd.opens hd
  rw [hs2] at e2
  cases e2
  have hsplit : pre ++ post = ts := hsplit
  have htotal : (annot ts).length = (opSaid a).count none + (opSaid b).count none := by
    have h1 := pending_length hpend
    rw [if_pos rfl, List.length_append, opKinds_said, opKinds_said] at h1
    rw [← h1]
    show _ + (some msg :: opSaid b).count none = _
    rw [List.count_cons_of_ne (by simp)]
  have hleft : (opSaid b).count none = if pre = [] then (annot post).length else (annotSig post).length := by
    rw [← pending_length p2, opKinds_said]
    show _ = (some msg :: opSaid b).count none
    rw [List.count_cons_of_ne (by simp)]
  refine ⟨pre, post, opSaid a, opSaid b, hsplit.symm, i2.textPos, ?_, ?_⟩
  · rw [← opSaid_forest, hab, opSaid_append]
    rfl
  · by_cases hp : pre = []
    · subst hp
      have hsplit : post = ts := hsplit
      subst hsplit
      rw [if_pos rfl] at hleft
      have h0 : (opSaid a).count none = 0 := by omega
      rw [h0, List.drop_zero]
      cases post with
      | nil => rfl
      | cons x post =>
        cases hx : x.1.isTrivia with
        | false => rw [annot, annotSig, if_neg (by simp [hx])]
        | true =>
          have hstart := rd.starts rfl x rfl hx
          rw [hab] at hstart
          cases a with
          | nil =>
            obtain ⟨k, n, h⟩ := hstart _ rfl
            cases h
          | cons o a =>
            obtain ⟨k, n, rfl⟩ := hstart _ rfl
            have h0 : (none :: opSaid a).count none = 0 := h0
            rw [List.count_cons_self] at h0
            cases h0
    · rw [if_neg hp] at hleft
      cases pre with
      | nil => exact absurd rfl hp
      | cons x pre =>
        subst hsplit
        obtain ⟨p, hp'⟩ := annotSig_behind pre post
        have hts : annot (x :: pre ++ post) = (Tok.of x (pre ++ post) :: p) ++ annotSig post := by
          rw [List.cons_append, annot, hp']
          rfl
        rw [hts] at htotal ⊢
        rw [List.length_append] at htotal
        have : (opSaid a).count none = (Tok.of x (pre ++ post) :: p).length := by omega
        rw [this, List.drop_left]

/-- **No syntax error says that something is missing that stands there.**  Every message is one of the table, and the
next token behind the place where it is reported is none of those that the message asks for. -/
theorem errors_say_what_is_missing {text : Text} {kind : Kind} {tree : Green} {errors : List SyntaxError}
    (hp : parse text = .ok kind tree errors) {e : SyntaxError} (he : e ∈ errors) :
    ∃ before after wanted, Lexes text (before ++ after) ∧ e.offset = byteLen (before.map Prod.snd).flatten ∧
      (e.msg, wanted) ∈ table ∧ upcoming after ∉ wanted := by
  obtain ⟨_, ts, hl, _⟩ := parse_ok hp
  obtain ⟨lx, hnew, hst⟩ := Stands.new hl
  have hg := root_good hnew (maxDepth text) (Nat.le_refl _)
  have he' := run_erases (M := highLevel) (cb := callB highLevel body (maxDepth text))
    (c := callN highLevel body (maxDepth text))
    (fun f s => callB_erases highLevel body (maxDepth text) (maxDepth text) (Nat.le_refl _) f s) root
    (HState.initial lx, maxDepth text)
  have hlow := highLevel_agree.run (callN_agree highLevel_agree body (maxDepth text)) root (HState.initial lx)
    (PState.initial lx) ⟨rfl, rfl, rfl, rfl, trivial, trivial⟩
  generalize run (budgeted highLevel) (callB highLevel body (maxDepth text)) root
    (HState.initial lx, maxDepth text) = ob at hg he'
  rcases he' with rfl | he'
  · exact absurd hg id
  · simp only at he'
    rw [he'] at hlow
    cases ob with
    | ok a s =>
      obtain ⟨h, b⟩ := s
      obtain ⟨l, e3, rep⟩ := hlow
      have fin : Finished text h := hg
      obtain ⟨kids, hi⟩ := fin.tree
      obtain ⟨ops, sink, tree', errors', ts', h1, h2, h3, h4, h5, h6⟩ := build_tree fin rep
      obtain ⟨ts'', s1, hl'', rd⟩ := sink_ready fin rep hi
      cases hl.unique hl''
      have hev : l.events = (Forest.node .nil .SOURCE_FILE .nil kids).ev none := by
        rw [rep.events, fin.outer, hi]; rfl
      have hwf : (Forest.node .nil .SOURCE_FILE .nil kids).Wf := by
        have := rep.wf
        rwa [hi] at this
      rw [hev, process_forest _ hwf] at h1
      cases h1
      have e4 : parseEvents (maxDepth text) text = .ok () l := by
        unfold parseEvents
        rw [hnew]
        exact e3
      have e5 : parse text = .ok .SOURCE_FILE tree' errors' := by
        unfold parse parseWithDepth
        rw [e4]
        simp only [hev, process_forest _ hwf, h3, h4]
        rfl
      rw [e5] at hp
      cases hp
      rw [(open_finish h4).2] at he
      obtain ⟨before, after, x, y, hsplit, hoff, hsaid, hdrop⟩ := error_offset rd hwf.2.2.2.2 h3 he
      have r0 : AllRight (annot ts) (HState.initial lx) ⟨annot ts, 0, 0, .nil, []⟩ :=
        ⟨⟨⟨ts, hst, rfl⟩, rfl, rfl, rfl, rfl⟩, rfl, fun a m b h => by
          have h : [] = a ++ some m :: b := h
          cases a <;> cases h⟩
      obtain ⟨s', r', _⟩ := run_right (callN_right (fun f _ => tl_body f) (maxDepth text)) root (Q := fun _ _ => True) r0
        (tl_root fun _ _ => trivial) he'
      have hsaid' : h.said = x ++ some e.msg :: y := by
        rw [← hsaid]
        simp only [HState.said, fin.outer, hi, stackSaid, Forest.said, List.nil_append]
      obtain ⟨ks, hk1, hk2⟩ := r'.right x e.msg y hsaid'
      rw [hdrop, kind0_upcoming] at hk2
      exact ⟨before, after, ks, hsplit ▸ hl, hoff, hk1, hk2⟩
    | panic w =>
      have e3 : run lowLevel (callN lowLevel body (maxDepth text)) root (PState.initial lx) = .panic w := by
        rcases hg with rfl | rfl | rfl <;> exact hlow
      unfold parse parseWithDepth parseEvents at hp
      rw [hnew] at hp
      simp only [PState.initial] at e3
      simp only [e3] at hp
      cases hp
    | outOfFuel => exact absurd hg id

/-- The messages for a text. -/
def messagesOf (text : Text) : List String :=
  match parse text with
  | .ok _ _ errors => errors.map (·.msg)
  | _ => []

theorem messagesOf_mem {text : Text} {m : String} (h : m ∈ messagesOf text) :
    ∃ kind tree errors, parse text = .ok kind tree errors ∧ ∃ e ∈ errors, e.msg = m := by
  unfold messagesOf at h
  split at h
  · rename_i kind tree errors hp
    obtain ⟨e, he, hm⟩ := List.mem_map.1 h
    exact ⟨kind, tree, errors, hp, e, he, hm⟩
  · cases h

/-- Texts with the messages of the table. -/
def wrongTexts : List String := [
  "module M{struct S<T{a:u8}}",
  "module M{struct S{a b}}",
  "module M{fun f(",
  "module M{",
  "module M{struct S<T{}}",
  "module M{fun f(){S{{1}}}}",
  "module{}",
  "module M{fun f(){let S{{}}=1;}}",
  "module M{fun f(){x::1}}",
  "module M{fun f(){S{{1}}}}",
  "module M{fun f(){x.}}",
  "module M{struct S{1}}",
  "module M{struct S<1>{}}",
  "module M{fun f({}}",
  "module M{struct S{a:}}",
  "module M{fun f(a){}}",
  "module M{fun f(){let (;}}",
  "module M{fun f(){let 1=1;}}",
  "module M{fun f(){@;}}",
  "module ;::M{}",
  "module M{fun f(){let x=;}}",
  "module M{fun f()",
  "address 0x1",
  "module M",
  "module M{fun f{}}",
  "module M{;}",
  "module M{;}"]

/-- **The table has no message too many.**  Each message but the last is reported for some text; behind the last one
the parser does not come to an end. -/
theorem each_message_is_reported : ∀ row ∈ table.dropLast,
    ∃ text kind tree errors, parse text = .ok kind tree errors ∧ ∃ e ∈ errors, e.msg = row.1 := by
  have h : ((table.dropLast.zip wrongTexts).all fun (row, t) =>
      (messagesOf t.toList).any fun m => m.toList == row.1.toList) = true := by
    decide +kernel
  have hl : table.dropLast.length = wrongTexts.length := by decide
  intro row hrow
  obtain ⟨i, hi, rfl⟩ := List.mem_iff_getElem.1 hrow
  have h1 := List.all_eq_true.1 h (table.dropLast[i], wrongTexts[i]'(by omega)) (by
    rw [← List.getElem_zip (h := by rw [List.length_zip]; omega)]
    exact List.getElem_mem _)
  obtain ⟨m, hm, he⟩ := List.any_eq_true.1 h1
  have he : m = table.dropLast[i].1 := String.ext (eq_of_beq he)
  subst he
  obtain ⟨kind, tree, errors, hp, e, he, hm⟩ := messagesOf_mem hm
  exact ⟨_, kind, tree, errors, hp, e, he, hm⟩

/-- Witness of `errors_say_what_is_missing`: a text with five messages. -/
example : (messagesOf "module 0x1::M { fun f( { let = 1; } struct }".toList).length = 5 := by decide +kernel

end Verif.Parser
