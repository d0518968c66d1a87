import Verif.Parser.ViableTop

set_option autoImplicit false

/-!
From a run of the parser that reports an error to the place where the run that stops at errors meets
its first one: both have read the same tokens.
-/

namespace Verif.Parser

open Language Lexer

/-! ### The order of tokens and errors -/

/-- The tokens (`false`) and error messages (`true`) of a forest from left to right. -/
def Forest.marks : Forest → List Bool
  | .nil => []
  | .tok i _ => i.marks ++ [false]
  | .err i _ => i.marks ++ [true]
  | .tomb i => i.marks
  | .node i _ pre kids => i.marks ++ pre.marks ++ kids.marks

theorem marks_append (a b : Forest) : (a.append b).marks = a.marks ++ b.marks := by
  induction b with
  | nil => exact (List.append_nil _).symm
  | tok i k ih => simp only [Forest.append, Forest.marks, ih, List.append_assoc]
  | err i m ih => simp only [Forest.append, Forest.marks, ih, List.append_assoc]
  | tomb i ih => exact ih
  | node i k pre kids ih => simp only [Forest.append, Forest.marks, ih, List.append_assoc]

theorem marks_errs (F : Forest) (h : F.errs ≠ 0) : true ∈ F.marks := by
  induction F with
  | nil => exact absurd rfl h
  | tok i k ih => exact List.mem_append_left _ (ih h)
  | err i m ih => exact List.mem_append_right _ (List.mem_singleton.2 rfl)
  | tomb i ih => exact ih h
  | node i k pre kids h1 h2 h3 =>
    simp only [Forest.errs] at h
    simp only [Forest.marks, List.mem_append]
    by_cases e1 : i.errs = 0
    · by_cases e2 : pre.errs = 0
      · exact .inr (h3 (by omega))
      · exact .inl (.inr (h2 e2))
    · exact .inl (.inl (h1 e1))

def stackMarks : List Saved → List Bool
  | [] => []
  | s :: rest => stackMarks rest ++ (s.items.marks ++ s.pre.marks)

/-- The tokens and messages so far. -/
def HState.marks (h : HState) : List Bool := stackMarks h.outer ++ h.items.marks

/-! ### One operation -/

/-- An operation that reports no error: the machine on tokens does the same, and has at most as many
tokens less as the forest has more. -/
def Goes {α : Type} (oh : Out HState α) (os : Out TState α) (h : HState) (s : TState) : Prop :=
  ∀ a h', oh = .ok a h' → ∃ s' n, os = .ok a s' ∧ TRep h' s' ∧ h'.marks = h.marks ++ List.replicate n false ∧
    s.toks.length ≤ s'.toks.length + n

theorem Goes.quiet {α : Type} {oh : Out HState α} {ol os : Out TState α} {h : HState} {s : TState}
    (ag : AgreeR TRep oh ol) (hos : ∀ a s', ol = .ok a s' → os = .ok a s' ∧ s'.toks = s.toks)
    (hm : ∀ a h', oh = .ok a h' → h'.marks = h.marks) : Goes oh os h s := by
  intro a h' e
  rw [e] at ag
  obtain ⟨s', e', r⟩ := ag
  obtain ⟨h1, h2⟩ := hos a s' e'
  exact ⟨s', 0, h1, r, by rw [hm a h' e]; exact (List.append_nil _).symm, by rw [h2]; exact Nat.le_refl _⟩

theorem goes_currentText {h : HState} {s : TState} (r : TRep h s) :
    Goes (highLevel.currentText h) (strictTok.currentText s) h s := by
  refine .quiet (tokenLevel_agree.currentText h s r) (fun a s' e => ⟨e, by cases e; rfl⟩) fun a h' e => ?_
  simp only [highLevel] at e
  split at e <;> cases e
  rfl

theorem goes_nth {h : HState} {s : TState} (n : Nat) (r : TRep h s) :
    Goes (highLevel.nth n h) (strictTok.nth n s) h s := by
  refine .quiet (tokenLevel_agree.nth n h s r) (fun a s' e => ?_) fun a h' e => ?_
  · have e : tNthLimited n s = .ok a s' := e
    unfold tNthLimited at e
    split at e
    · split at e
      · refine ⟨e, ?_⟩
        match n, e with
        | 0, e => cases e; rfl
        | 1, e => cases e; rfl
        | 2, e => cases e; rfl
      · cases e
    · cases e
  · have e : hNth n h = .ok a h' := e
    unfold hNth at e
    split at e
    · split at e
      · split at e
        · split at e <;> cases e
          rfl
        · cases e
      · cases e
    · cases e

theorem goes_doBump {h : HState} {s : TState} (kind : Kind) (r : TRep h s) :
    Goes (highLevel.doBump kind h) (strictTok.doBump kind s) h s := by
  intro a h' e
  have ag := tokenLevel_agree.doBump kind h s r
  rw [e] at ag
  obtain ⟨s', e', r'⟩ := ag
  refine ⟨s', 1, e', r', ?_, ?_⟩
  · have e : hDoBump kind h = .ok a h' := e
    unfold hDoBump at e
    split at e <;> cases e
    simp only [HState.marks, Forest.marks, List.append_assoc]
    rfl
  · cases e'
    show s.toks.length ≤ s.toks.tail.length + 1
    rw [List.length_tail]
    omega

theorem goes_start {h : HState} {s : TState} (r : TRep h s) :
    Goes (highLevel.start h) (strictTok.start s) h s := by
  refine .quiet (tokenLevel_agree.start h s r) (fun a s' e => ⟨e, by cases e; rfl⟩) fun a h' e => ?_
  cases e
  simp only [HState.marks, stackMarks, Forest.marks, List.append_nil]

theorem goes_complete {h : HState} {s : TState} (m : Marker) (kind : Kind) (r : TRep h s) :
    Goes (highLevel.complete m kind h) (strictTok.complete m kind s) h s := by
  refine .quiet (tokenLevel_agree.complete m kind h s r) (fun a s' e => ⟨e, ?_⟩) fun a h' e => ?_
  · have e : tComplete m kind s = .ok a s' := e
    unfold tComplete at e
    split at e <;> cases e
    rfl
  · have e : hComplete m kind h = .ok a h' := e
    unfold hComplete at e
    split at e
    · rename_i sv rest ho
      split at e <;> cases e
      simp only [HState.marks, ho, stackMarks, Forest.marks, List.append_assoc]
    · cases e

theorem goes_abandon {h : HState} {s : TState} (m : Marker) (r : TRep h s) :
    Goes (highLevel.abandon m h) (strictTok.abandon m s) h s := by
  refine .quiet (tokenLevel_agree.abandon m h s r) (fun a s' e => ⟨e, ?_⟩) fun a h' e => ?_
  · have e : tAbandon s = .ok a s' := e
    unfold tAbandon at e
    split at e
    · split at e <;> cases e <;> rfl
    · cases e
  · have e : hAbandon m h = .ok a h' := e
    unfold hAbandon at e
    split at e
    · rename_i sv rest ho
      split at e
      · rename_i hm
        split at e
        · rename_i hi
          cases e
          simp only [HState.marks, ho, stackMarks, Forest.marks, hm.2, hi, List.append_nil]
        · cases e
          simp only [HState.marks, ho, stackMarks, Forest.marks, hm.2, marks_append, List.append_assoc,
            List.nil_append]
      · cases e
    · cases e

theorem goes_precede {h : HState} {s : TState} (c : Completed) (r : TRep h s) :
    Goes (highLevel.precede c h) (strictTok.precede c s) h s := by
  refine .quiet (tokenLevel_agree.precede c h s r) (fun a s' e => ⟨e, ?_⟩) fun a h' e => ?_
  · have e : tPrecede s = .ok a s' := e
    unfold tPrecede at e
    split at e <;> cases e
    rfl
  · have e : hPrecede c h = .ok a h' := e
    unfold hPrecede at e
    split at e
    · rename_i hi
      split at e <;> cases e
      simp only [HState.marks, hi, stackMarks, Forest.marks, List.append_nil, List.nil_append, List.append_assoc]
    · cases e

/-! ### After the first error -/

/-- The forest grows at its end, and the tokens get fewer by at most its new ones. -/
def Adv (h h' : HState) : Prop :=
  ∃ rest, h'.marks = h.marks ++ rest ∧
    ∀ s, TRep h s → ∃ s', TRep h' s' ∧ s.toks.length ≤ s'.toks.length + rest.count false

theorem Adv.refl (h : HState) : Adv h h := ⟨[], (List.append_nil _).symm, fun s r => ⟨s, r, Nat.le_refl _⟩⟩

theorem Adv.trans {h1 h2 h3 : HState} (a : Adv h1 h2) (b : Adv h2 h3) : Adv h1 h3 := by
  obtain ⟨r1, e1, f1⟩ := a
  obtain ⟨r2, e2, f2⟩ := b
  refine ⟨r1 ++ r2, by rw [e2, e1, List.append_assoc], fun s r => ?_⟩
  obtain ⟨s2, q2, l2⟩ := f1 s r
  obtain ⟨s3, q3, l3⟩ := f2 s2 q2
  exact ⟨s3, q3, by rw [List.count_append]; omega⟩

/-- Every outcome of an operation is further. -/
def Further {α : Type} (o : Out HState α) (h : HState) : Prop := ∀ a h', o = .ok a h' → (∃ s, TRep h s) → Adv h h'

theorem Goes.further {α : Type} {oh : Out HState α} {os : TState → Out TState α} {h : HState}
    (g : ∀ s, TRep h s → Goes oh (os s) h s) : Further oh h := by
  rintro a h' e ⟨s0, r0⟩
  obtain ⟨_, n, _, _, hm, _⟩ := g s0 r0 a h' e
  refine ⟨_, hm, fun s r => ?_⟩
  obtain ⟨s', n', _, r', hm', hl⟩ := g s r a h' e
  have : n' = n := by
    have := List.append_cancel_left (hm'.symm.trans hm)
    have := congrArg List.length this
    simpa using this
  subst this
  exact ⟨s', r', by rw [List.count_replicate_self]; exact hl⟩

theorem Further.bind {α β : Type} {o : Out HState α} {f : α → HState → Out HState β} {h : HState}
    (ho : Further o h) (hf : ∀ a h1, Further (f a h1) h1) : Further (o.bind f) h := by
  intro b h' e hs
  cases o with
  | ok a h1 =>
    have a1 := ho a h1 rfl hs
    obtain ⟨s, r⟩ := hs
    obtain ⟨_, _, f1⟩ := id a1
    obtain ⟨s1, r1, _⟩ := f1 s r
    exact a1.trans (hf a h1 b h' e ⟨s1, r1⟩)
  | panic w => cases e
  | outOfFuel => cases e

theorem further_error (msg : String) (h : HState) : Further (highLevel.error msg h) h := by
  rintro a h' e _
  refine ⟨[true], ?_, fun s r => ?_⟩
  · cases e
    simp only [HState.marks, Forest.marks, List.append_assoc]
  · have ag := tokenLevel_agree.error msg h s r
    rw [e] at ag
    obtain ⟨s', e', r'⟩ := ag
    refine ⟨s', r', ?_⟩
    cases e'
    exact Nat.le_add_right _ _

theorem run_further {c : (f : Fn) → HState → Out HState f.Res} (hc : ∀ f h, Further (c f h) h) {α : Type}
    (p : Prog α) (h : HState) : Further (run highLevel c p h) h := by
  induction p generalizing h with
  | pure a => intro b h' e _; cases e; exact .refl h
  | panic w => intro b h' e; cases e
  | current k ih => exact ih _ h
  | currentText k ih => exact (Goes.further fun _ r => goes_currentText r).bind fun b h => ih b h
  | nth n k ih => exact (Goes.further fun _ r => goes_nth n r).bind fun b h => ih b h
  | doBump kind k ih => exact (Goes.further fun _ r => goes_doBump kind r).bind fun _ h => ih h
  | start k ih => exact (Goes.further fun _ r => goes_start r).bind fun b h => ih b h
  | complete m kind k ih => exact (Goes.further fun _ r => goes_complete m kind r).bind fun b h => ih b h
  | abandon m k ih => exact (Goes.further fun _ r => goes_abandon m r).bind fun _ h => ih h
  | precede c k ih => exact (Goes.further fun _ r => goes_precede c r).bind fun b h => ih b h
  | error msg k ih => exact (further_error msg h).bind fun _ h => ih h
  | call f k ih => exact (hc f h).bind fun b h => ih b h

theorem callN_further (n : Nat) (f : Fn) (h : HState) : Further (callN highLevel body n f h) h := by
  induction n generalizing f h with
  | zero => intro a h' e; cases e
  | succ n ih => exact run_further ih (body f) h

/-! ### Until the first error -/

/-- Between two states of the machine there is an error, and the machine on tokens meets it in `t`. -/
def Halt (h : HState) (s t : TState) (h' : HState) : Prop :=
  ∃ n rest, h'.marks = h.marks ++ List.replicate n false ++ true :: rest ∧
    s.toks.length ≤ t.toks.length + n ∧
    ∃ s', TRep h' s' ∧ t.toks.length ≤ s'.toks.length + rest.count false

/-- A program goes through without an error on both machines, or the one on tokens meets an error. -/
def Meant {α : Type} (oh : Out HState α) (os : Out TState α) (hl : TState → Prop) (h : HState) (s : TState) :
    Prop :=
  ∀ a h', oh = .ok a h' →
    (∃ s' n, os = .ok a s' ∧ TRep h' s' ∧ h'.marks = h.marks ++ List.replicate n false ∧
      s.toks.length ≤ s'.toks.length + n) ∨ ∃ t, hl t ∧ Halt h s t h'

theorem Goes.meant {α : Type} {oh : Out HState α} {os : Out TState α} {h : HState} {s : TState}
    (g : Goes oh os h s) (hl : TState → Prop) : Meant oh os hl h s :=
  fun a h' e => .inl (g a h' e)

theorem Meant.bind {α β : Type} {oh : Out HState α} {os : Out TState α} {e1 : TState → Prop} {h : HState}
    {s : TState} {fh : α → HState → Out HState β} {fs : α → TState → Out TState β}
    {e2 : α → TState → TState → Prop} (h1 : Meant oh os e1 h s) (hfar : ∀ a h1, Further (fh a h1) h1)
    (h2 : ∀ a h1 s1, TRep h1 s1 → Meant (fh a h1) (fs a s1) (e2 a s1) h1 s1) :
    Meant (oh.bind fh) (os.bind fs) (fun t => e1 t ∨ os.Then fun a s' => e2 a s' t) h s := by
  intro b h' e
  cases oh with
  | ok a hm =>
    rcases h1 a hm rfl with ⟨s1, n1, rfl, r1, m1, l1⟩ | ⟨t, ht, n, rest, m1, l1, s1, r1, l2⟩
    · rcases h2 a hm s1 r1 b h' e with ⟨s2, n2, e2, r2, m2, l2⟩ | ⟨t, ht, n2, rest, m2, l2, q⟩
      · refine .inl ⟨s2, n1 + n2, e2, r2, ?_, by omega⟩
        rw [m2, m1, List.append_assoc, List.replicate_append_replicate]
      · refine .inr ⟨t, .inr ht, n1 + n2, rest, ?_, by omega, q⟩
        rw [m2, m1, ← List.replicate_append_replicate]
        simp only [List.append_assoc]
    · obtain ⟨rest', m2, f2⟩ := hfar a hm b h' e ⟨s1, r1⟩
      obtain ⟨s2, r2, l3⟩ := f2 s1 r1
      refine .inr ⟨t, .inl ht, n, rest ++ rest', ?_, l1, s2, r2, ?_⟩
      · rw [m2, m1]
        simp only [List.append_assoc, List.cons_append]
      · rw [List.count_append]
        omega
  | panic w => cases e
  | outOfFuel => cases e

theorem Meant.mono {α : Type} {oh : Out HState α} {os : Out TState α} {e1 e2 : TState → Prop} {h : HState}
    {s : TState} (h1 : Meant oh os e1 h s) (he : ∀ t, e1 t → e2 t) : Meant oh os e2 h s := by
  intro a h' e
  rcases h1 a h' e with h | ⟨t, ht, h⟩
  · exact .inl h
  · exact .inr ⟨t, he t ht, h⟩

theorem run_meant {c : (f : Fn) → HState → Out HState f.Res} {cs : (f : Fn) → TState → Out TState f.Res}
    {e : Fn → TState → TState → Prop} (hc : ∀ f h s, TRep h s → Meant (c f h) (cs f s) (e f s) h s)
    (hf : ∀ f h, Further (c f h) h) {α : Type} (p : Prog α) (h : HState) (s : TState) (r : TRep h s) :
    Meant (run highLevel c p h) (run strictTok cs p s) (halts cs e p s) h s := by
  have op : ∀ {β : Type} {oh : Out HState β} {os : Out TState β} {h : HState} {s : TState} (_ : Goes oh os h s)
      {k : β → Prog α},
      (∀ b h s, TRep h s → Meant (run highLevel c (k b) h) (run strictTok cs (k b) s) (halts cs e (k b) s) h s) →
      Meant (oh.bind fun b h => run highLevel c (k b) h) (os.bind fun b s => run strictTok cs (k b) s)
        (fun t => os.Then fun b s' => halts cs e (k b) s' t) h s := by
    intro β oh os h s g k ih
    refine (Meant.bind (g.meant fun _ => False) (fun b h => run_further hf (k b) h) ih).mono ?_
    rintro t (h | h)
    · exact absurd h id
    · exact h
  induction p generalizing h s with
  | pure a =>
    intro b h' er
    cases er
    exact .inl ⟨s, 0, rfl, r, (List.append_nil _).symm, Nat.le_refl _⟩
  | panic w => intro b h' er; cases er
  | current k ih =>
    have := ih (highLevel.current h) h s r
    have hcur : strictTok.current s = highLevel.current h := tokenLevel_agree.current h s r
    show Meant (run highLevel c (k (highLevel.current h)) h) (run strictTok cs (k (strictTok.current s)) s)
      (halts cs e (k (strictTok.current s)) s) h s
    rw [hcur]
    exact this
  | currentText k ih => exact op (goes_currentText r) ih
  | nth n k ih => exact op (goes_nth n r) ih
  | doBump kind k ih => exact op (goes_doBump kind r) fun _ => ih
  | start k ih => exact op (goes_start r) ih
  | complete m kind k ih => exact op (goes_complete m kind r) ih
  | abandon m k ih => exact op (goes_abandon m r) fun _ => ih
  | precede c k ih => exact op (goes_precede c r) ih
  | error msg k ih =>
    intro b h' er
    have er : (highLevel.error msg h).bind (fun _ h => run highLevel c k h) = .ok b h' := er
    have ag := tokenLevel_agree.error msg h s r
    obtain ⟨s1, e1, r1⟩ := ag
    have htoks : s1.toks = s.toks := by cases e1; rfl
    obtain ⟨rest, hm, hr⟩ := run_further hf k _ b h' er ⟨s1, r1⟩
    obtain ⟨s2, r2, l2⟩ := hr s1 r1
    refine .inr ⟨s, rfl, 0, rest, ?_, Nat.le_refl _, s2, r2, by rw [← htoks]; exact l2⟩
    rw [hm]
    simp only [HState.marks, Forest.marks, List.append_assoc]
    rfl
  | call f k ih => exact Meant.bind (hc f h s r) (fun b h => run_further hf (k b) h) ih

theorem callN_meant (n : Nat) (f : Fn) (h : HState) (s : TState) (r : TRep h s) :
    Meant (callN highLevel body n f h) (callN strictTok body n f s) (haltsN n f s) h s := by
  induction n generalizing f h s with
  | zero => intro a h' e; cases e
  | succ n ih => exact run_meant (fun f h s r => ih f h s r) (callN_further n) (body f) h s r

/-! ### The calls on the tree sink -/

/-- Tokens and messages in a list of calls. -/
def opMarks (os : List Op) : List Bool :=
  os.filterMap fun
    | .token _ _ => some false
    | .error _ => some true
    | _ => none

theorem opMarks_append (a b : List Op) : opMarks (a ++ b) = opMarks a ++ opMarks b := by
  unfold opMarks
  rw [List.filterMap_append]

theorem opMarks_forest (F : Forest) : opMarks F.ops = F.marks := by
  induction F with
  | nil => rfl
  | tok i k ih => simp only [Forest.ops, Forest.marks, opMarks_append, ih]; rfl
  | err i m ih => simp only [Forest.ops, Forest.marks, opMarks_append, ih]; rfl
  | tomb i ih => exact ih
  | node i k pre kids ih1 ih2 ih3 =>
    simp only [Forest.ops, Forest.marks, opMarks_append, ih1, List.append_assoc]
    show i.marks ++ opMarks (pre.ops ++ (kids.ops ++ [.finishNode])) = _
    simp only [opMarks_append, ih2, ih3]
    rw [show opMarks [.finishNode] = [] from rfl, List.append_nil]

/-- The calls up to the first message and behind it. -/
theorem split_ops (os : List Op) (n : Nat) (rest : List Bool)
    (h : opMarks os = List.replicate n false ++ true :: rest) :
    ∃ a msg b, os = a ++ .error msg :: b ∧ opMarks a = List.replicate n false ∧ opMarks b = rest := by
  induction os generalizing n with
  | nil => cases n <;> cases h
  | cons o os ih =>
    have skip : ∀ {x : Op}, opMarks (x :: os) = opMarks os → opMarks (x :: os) = List.replicate n false ++ true :: rest →
        ∃ a msg b, x :: os = a ++ .error msg :: b ∧ opMarks a = List.replicate n false ∧ opMarks b = rest := by
      intro x hx h
      rw [hx] at h
      obtain ⟨a, msg, b, e1, e2, e3⟩ := ih n h
      refine ⟨x :: a, msg, b, by rw [e1]; rfl, ?_, e3⟩
      have hx' : opMarks [x] = [] := by
        have := opMarks_append [x] os
        rw [List.singleton_append, hx] at this
        exact (List.append_left_eq_self.1 this.symm)
      have := opMarks_append [x] a
      rw [hx', List.nil_append] at this
      rw [← e2]
      exact this
    cases o with
    | startNode k => exact skip rfl h
    | finishNode => exact skip rfl h
    | token k m =>
      have h : false :: opMarks os = List.replicate n false ++ true :: rest := h
      cases n with
      | zero => cases h
      | succ n =>
        rw [List.replicate_succ, List.cons_append] at h
        obtain ⟨a, msg, b, e1, e2, e3⟩ := ih n (List.cons.inj h).2
        exact ⟨.token k m :: a, msg, b, by rw [e1]; rfl, by
          show false :: opMarks a = _
          rw [e2, List.replicate_succ], e3⟩
    | error m =>
      have h : true :: opMarks os = List.replicate n false ++ true :: rest := h
      cases n with
      | zero => exact ⟨[], m, os, rfl, rfl, (List.cons.inj h).2⟩
      | succ n => rw [List.replicate_succ, List.cons_append] at h; cases h

theorem opKinds_count (os : List Op) : (opKinds os).length = (opMarks os).count false := by
  induction os with
  | nil => rfl
  | cons o os ih =>
    cases o with
    | startNode k => exact ih
    | finishNode => exact ih
    | token k n =>
      show (opKinds os).length + 1 = (false :: opMarks os).count false
      rw [List.count_cons_self, ih]
    | error m =>
      show (opKinds os).length = (true :: opMarks os).count false
      rw [List.count_cons_of_ne (by decide), ih]

theorem aligned_length {ks : List Kind} {post : List (Kind × Text)} (h : Aligned ks post) :
    ks.length = (annotSig post).length := by
  have triv : ∀ (t us : List (Kind × Text)), (∀ x ∈ t, x.1.isTrivia = true) → annotSig (t ++ us) = annotSig us := by
    intro t us ht
    induction t with
    | nil => rfl
    | cons x t ih =>
      show annotSig (x :: (t ++ us)) = _
      exact (if_pos (ht x List.mem_cons_self)).trans (ih fun y hy => ht y (List.mem_cons_of_mem _ hy))
  induction h with
  | nil h0 =>
    have := triv _ [] h0
    rw [List.append_nil] at this
    rw [this]
    rfl
  | cons h1 _ h3 _ ih =>
    rw [triv _ _ h1, annotSig, if_neg (by simp [h3]), List.length_cons, List.length_cons, ih]

theorem aligned0_length {ks : List Kind} {ts : List (Kind × Text)} (h : Aligned0 ks ts) :
    ks.length = (annot ts).length := by
  cases h with
  | nil => rfl
  | cons _ h2 =>
    rw [annot, List.length_cons, List.length_cons, aligned_length h2]

theorem pending_length {pre post : List (Kind × Text)} {ks : List Kind} (h : Pending pre ks post) :
    ks.length = if pre = [] then (annot post).length else (annotSig post).length := by
  unfold Pending at h
  split at h
  · rename_i hp; rw [if_pos hp, aligned0_length h]
  · rename_i hp; rw [if_neg hp, aligned_length h]

theorem depth_append (a b : List Op) (n : Nat) : depth n (a ++ b) = (depth n a).bind fun m => depth m b := by
  induction a generalizing n with
  | nil => cases n <;> rfl
  | cons o a ih =>
    cases o with
    | startNode k => cases n <;> exact ih _
    | finishNode =>
      cases n with
      | zero => rfl
      | succ n => exact ih n
    | token k m => cases n <;> exact ih _
    | error m => cases n <;> exact ih _

theorem op_errors {s s' : Sink} {o : Op} (h : s.op o = some s') : ∃ more, s'.errors = s.errors ++ more := by
  have same : s'.errors = s.errors → ∃ more, s'.errors = s.errors ++ more :=
    fun e => ⟨[], by rw [e, List.append_nil]⟩
  cases o with
  | error m => cases h; exact ⟨_, rfl⟩
  | token k n => exact same (open_token h).2
  | startNode k =>
    change s.startNode k = some s' at h
    unfold Sink.startNode at h
    cases hs : s.state with
    | pendingStart => rw [hs] at h; cases h; exact same rfl
    | pendingFinish =>
      rw [hs] at h
      simp only [Option.bind_eq_some_iff] at h
      obtain ⟨s1, h1, h2⟩ := h
      exact same (by rw [(open_startNode_go h2).2.2, (open_innerFinish h1).2.2])
    | normal =>
      rw [hs] at h
      exact same (open_startNode_go h).2.2
  | finishNode =>
    change s.finishNode = some s' at h
    unfold Sink.finishNode at h
    cases hs : s.state with
    | pendingStart => rw [hs] at h; cases h
    | pendingFinish => rw [hs] at h; exact same (open_innerFinish h).2.2
    | normal => rw [hs] at h; cases h; exact same rfl

theorem ops_errors {s s' : Sink} {os : List Op} (h : s.ops os = some s') : ∃ more, s'.errors = s.errors ++ more := by
  induction os generalizing s with
  | nil => cases h; exact ⟨[], (List.append_nil _).symm⟩
  | cons o os ih =>
    simp only [Sink.ops, Option.bind_eq_some_iff] at h
    obtain ⟨s1, h1, h2⟩ := h
    obtain ⟨m1, e1⟩ := op_errors h1
    obtain ⟨m2, e2⟩ := ih h2
    exact ⟨m1 ++ m2, by rw [e2, e1, List.append_assoc]⟩

theorem quiet_msgs {os : List Op} (h : true ∉ opMarks os) : os.flatMap Op.msgs = [] := by
  induction os with
  | nil => rfl
  | cons o os ih =>
    cases o with
    | error m => exact absurd List.mem_cons_self h
    | token k n => exact ih fun hm => h (List.mem_cons_of_mem _ hm)
    | startNode k => exact ih h
    | finishNode => exact ih h

/-- The first error is reported behind as many tokens as the parser has read then. -/
theorem first_offset {text : Text} {toks : List Lexer.Token} {kids : Forest} {ts : List (Kind × Text)} {s1 sink : Sink}
    (rd : Ready text toks kids ts s1) (hw : kids.Wf)
    (hops : (Sink.new text toks).ops (Forest.node .nil .SOURCE_FILE .nil kids).ops = some sink) {n : Nat}
    {rest : List Bool} (hm : kids.marks = List.replicate n false ++ true :: rest) :
    ∃ before after e es, ts = before ++ after ∧ sink.errors = e :: es ∧
      e.offset = byteLen (before.map Prod.snd).flatten ∧
      rest.count false = if before = [] then (annot after).length else (annotSig after).length := by
  rw [← opMarks_forest] at hm
  obtain ⟨a, msg, b, hab, ha, hb⟩ := split_ops _ _ _ hm
  have hdep := depth_forest kids 0 []
  rw [List.append_nil, hab, depth_append] at hdep
  have hdep : (depth 0 a).bind (fun m => depth m (.error msg :: b)) = some 0 := hdep
  obtain ⟨d, hd, _⟩ := Option.bind_eq_some_iff.1 hdep
  have hok := opOk_forest kids hw
  rw [hab] at hok
  have hpend := rd.pending
  rw [hab, opKinds_append] at hpend
  have hst : Starts [] ts a := by
    intro hp x hx hx1 o ho
    refine rd.starts hp x hx hx1 o ?_
    rw [hab]
    cases a with
    | nil => cases ho
    | cons y a => exact ho
  obtain ⟨s2, pre, post, ext, e2, i2, hsplit, p2, n2, o2, d2⟩ :=
    walk a (opKinds (.error msg :: b)) (fun o ho => hok o (List.mem_append_left _ ho)) (ext := [])
      (base := [(.SOURCE_FILE, .nil)]) (d := d) rd.inv hpend (by rw [rd.state]; decide) hst rd.opens hd
  have herr : s2.errors = [] := by
    have := (open_ops e2).2
    rw [rd.errors, quiet_msgs (by rw [ha]; intro h; cases List.eq_of_mem_replicate h)] at this
    have := congrArg List.length this
    simpa [messages] using this
  have hsink : ((s2.error msg).ops (b ++ [.finishNode])) = some sink := by
    have hops : (Sink.new text toks).ops (.startNode .SOURCE_FILE :: (kids.ops ++ [.finishNode])) = some sink := hops
    rw [hab] at hops
    simp only [Sink.ops, Sink.op, rd.start, Option.bind_some, ops_append, e2] at hops
    rw [ops_append]
    exact hops
  obtain ⟨more, hmore⟩ := ops_errors hsink
  refine ⟨pre, post, ⟨msg, s2.textPos⟩, more, ?_, ?_, i2.textPos, ?_⟩
  · rw [hsplit]; rfl
  · rw [hmore]
    show (s2.errors ++ [⟨msg, s2.textPos⟩]) ++ more = _
    rw [herr]
    rfl
  · rw [← pending_length p2, ← hb, ← opKinds_count]
    rfl

theorem significant_append (a b : List (Kind × Text)) : significant (a ++ b) = significant a ++ significant b := by
  unfold significant
  rw [List.filter_append]

/-- **What comes before the first error begins a file.** -/
theorem viable_prefix {text : Text} {kind : Kind} {tree : Green} {e : SyntaxError} {es : List SyntaxError}
    (hp : parse text = .ok kind tree (e :: es)) :
    ∃ ts before after rest shapes, Lexes text ts ∧ ts = before ++ after ∧
      e.offset = byteLen (before.map Prod.snd).flatten ∧
      DerivesBy Lenient [.nt .file] (significant before ++ rest) shapes := by
  obtain ⟨_, ts, hl, _⟩ := parse_ok hp
  obtain ⟨lx, hnew, hst⟩ := Stands.new hl
  have hg := root_good hnew (maxDepth text) (Nat.le_refl _)
  have he := run_erases (M := highLevel) (cb := callB highLevel body (maxDepth text))
    (c := callN highLevel body (maxDepth text))
    (fun f s => callB_erases highLevel body (maxDepth text) (maxDepth text) (Nat.le_refl _) f s) root
    (HState.initial lx, maxDepth text)
  have hlow := highLevel_agree.run (callN_agree highLevel_agree body (maxDepth text)) root (HState.initial lx)
    (PState.initial lx) ⟨rfl, rfl, rfl, rfl, trivial, trivial⟩
  generalize run (budgeted highLevel) (callB highLevel body (maxDepth text)) root
    (HState.initial lx, maxDepth text) = ob at hg he
  rcases he with rfl | he
  · exact absurd hg id
  · simp only at he
    rw [he] at hlow
    cases ob with
    | ok a s =>
      obtain ⟨h, b⟩ := s
      obtain ⟨l, e3, rep⟩ := hlow
      have fin : Finished text h := hg
      obtain ⟨kids, hi⟩ := fin.tree
      obtain ⟨ops, sink, tree', errors, ts', h1, h2, h3, h4, h5, h6⟩ := build_tree fin rep
      obtain ⟨ts'', s1, hl'', rd⟩ := sink_ready fin rep hi
      cases hl.unique hl''
      have hev : l.events = (Forest.node .nil .SOURCE_FILE .nil kids).ev none := by
        rw [rep.events, fin.outer, hi]; rfl
      have hwf : (Forest.node .nil .SOURCE_FILE .nil kids).Wf := by
        have := rep.wf
        rwa [hi] at this
      rw [hev, process_forest _ hwf] at h1
      cases h1
      obtain ⟨hs, hmsg⟩ := build_shapes h3 h4
      have e4 : parseEvents (maxDepth text) text = .ok () l := by
        unfold parseEvents
        rw [hnew]
        exact e3
      have e5 : parse text = .ok .SOURCE_FILE tree' errors := by
        unfold parse parseWithDepth
        rw [e4]
        simp only [hev, process_forest _ hwf, h3, h4]
        rfl
      rw [e5] at hp
      cases hp
      have hse : sink.errors = e :: es := (open_finish h4).2.symm
      have herr : kids.errs ≠ 0 := by
        rw [← msgs_length, ← hmsg]
        intro h0
        cases h0
      have hmarks : h.marks = kids.marks := by
        simp only [HState.marks, fin.outer, hi, stackMarks, Forest.marks, List.nil_append]
      have r0 : TRep (HState.initial lx) ⟨annot ts, 0, 0, .nil, []⟩ := ⟨⟨ts, hst, rfl⟩, rfl, rfl, rfl, rfl⟩
      rcases run_meant (callN_meant (maxDepth text)) (callN_further (maxDepth text)) root (HState.initial lx)
          ⟨annot ts, 0, 0, .nil, []⟩ r0 () h he with ⟨_, n, _, _, hm, _⟩ | ⟨t, ht, n, rest, hm, l1, s', r', l2⟩
      · have := marks_errs kids herr
        rw [← hmarks, hm] at this
        have : true ∈ List.replicate n false := this
        cases List.eq_of_mem_replicate this
      · have hm : kids.marks = List.replicate n false ++ true :: rest := by rw [← hmarks, hm]; rfl
        obtain ⟨before, after, e', es', hsplit, hse', hoff, hcount⟩ := first_offset rd hwf.2.2.2.2 h3 hm
        rw [hse] at hse'
        cases hse'
        have hk : ∀ x ∈ ts, isTokenKind x.1 = true := fun x hx => (Steps.kinds hl x hx).1
        obtain ⟨v, r, sh, hv, hd⟩ := root_begun hk _ ht
        -- the number of tokens that are left
        have hend : s'.toks = [] := by
          obtain ⟨us, hus, hw⟩ := r'.toks
          rw [hw]
          cases us with
          | nil => rfl
          | cons x us =>
            obtain ⟨_, _, _, _, hlu⟩ := hus.here
            have h1 := fin.eof
            rw [hus.kind] at h1
            exact absurd h1 (isTokenKind_ne_eof (Steps.kinds hlu x List.mem_cons_self).1)
        have htotal : n + rest.count false = (annot ts).length := by
          have h1 := pending_length rd.pending
          rw [if_pos rfl, opKinds_count, opMarks_forest, hm, List.count_append, List.count_replicate_self,
            List.count_cons_of_ne (by decide)] at h1
          exact h1
        have hleft : t.toks.length = rest.count false := by
          rw [hend, List.length_nil, Nat.zero_add] at l2
          have l1 : (annot ts).length ≤ t.toks.length + n := l1
          omega
        have hbefore : significant before = v.map Tok.pair := by
          have hsig : significant before ++ significant after = v.map Tok.pair ++ t.toks.map Tok.pair := by
            rw [← significant_append, ← hsplit, ← annotSig_pair, hv, List.map_append]
          by_cases hb : before = []
          · rw [if_pos hb] at hcount
            subst hb
            have hle : (annotSig ts).length ≤ (annot ts).length := by
              cases ts with
              | nil => exact Nat.le_refl _
              | cons x ts =>
                unfold annotSig annot
                split <;> simp
            have hts : ts = after := hsplit
            rw [← hts] at hcount
            have : v = [] := by
              have := congrArg List.length hv
              rw [List.length_append] at this
              exact List.length_eq_zero_iff.1 (by omega)
            rw [this]
            rfl
          · rw [if_neg hb] at hcount
            refine (List.append_inj' hsig ?_).1
            rw [← annotSig_pair, List.length_map, List.length_map, hleft, hcount]
        refine ⟨ts, before, after, r.map Tok.pair, sh, hl, hsplit, hoff, ?_⟩
        rw [hbefore, ← List.map_append]
        exact hd
    | panic w =>
      have e3 : run lowLevel (callN lowLevel body (maxDepth text)) root (PState.initial lx) = .panic w := by
        rcases hg with rfl | rfl | rfl <;> exact hlow
      unfold parse parseWithDepth parseEvents at hp
      rw [hnew] at hp
      simp only [PState.initial] at e3
      simp only [e3] at hp
      cases hp
    | outOfFuel => exact absurd hg id

end Verif.Parser
