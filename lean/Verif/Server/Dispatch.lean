import Verif.Server.DispatchModel

set_option autoImplicit false

/-!
C93: every request is answered once, whatever routes the server has.
-/

namespace Verif.Server.Dispatch

variable {G J P : Type}

namespace Spec

/-- What the client is told about the end of a handler. -/
inductive Tells : Ran → Body → Prop
  | value (v) : Tells (.returned v) (.ok v)
  | lsp (code message) : Tells (.failed (.lsp code message)) (.err code message)
  | cancelled : Tells (.failed .cancelled) (.err (-32801) "content modified".toList)
  | other (message) : Tells (.failed (.other message)) (.err (-32603) message)
  | panicked : Tells (.panicked none) (.err (-32603) "server panicked".toList)
  | panickedWith (message) : Tells (.panicked (some message)) (.err (-32603) ("server panicked: ".toList ++ message))

/-- The route of a request is the first with its method. -/
def RouteOf (routes : List (Route G J P)) (req : Request J) (r : Route G J P) : Prop :=
  ∃ pre post, routes = pre ++ r :: post ∧ r.method = req.method ∧ ∀ r' ∈ pre, r'.method ≠ req.method

/-- `Answer routes g req g' body later`: in the state `g` the request is to be answered with `body`, by a task of the
pool if `later`, and the state is `g'` then. -/
inductive Answer (routes : List (Route G J P)) (g : G) (req : Request J) : G → Body → Bool → Prop
  | unknown : (∀ r ∈ routes, r.method ≠ req.method) →
      Answer routes g req g (.err (-32601) "unknown request".toList) false
  | malformed {r e} : RouteOf routes req r → r.decode req.params = .error e → Answer routes g req g (.err (-32602) e) false
  | syncMut {r p f g' ran body} : RouteOf routes req r → r.decode req.params = .ok p → r.handler = .syncMut f →
      f g p = (g', ran) → (∀ m, ran ≠ .panicked m) → Tells ran body → Answer routes g req g' body false
  | sync {r p f body} : RouteOf routes req r → r.decode req.params = .ok p → r.handler = .sync f →
      Tells (f g p) body → Answer routes g req g body false
  | pool {r p f body} : RouteOf routes req r → r.decode req.params = .ok p → r.handler = .pool f →
      Tells (f g p) body → Answer routes g req g body true

/-- The request ends the server: its handler changes the state and panics. -/
def Ends (routes : List (Route G J P)) (g : G) (req : Request J) : Prop :=
  ∃ r p f g' m, RouteOf routes req r ∧ r.decode req.params = .ok p ∧ r.handler = .syncMut f ∧ f g p = (g', .panicked m)

/-- The requests of a run. -/
def asked : List (Step G J) → List RequestId
  | [] => []
  | .request req :: rest => req.id :: asked rest
  | _ :: rest => asked rest

/-- The response answers a request of the run, as the state was when it came; or the client cancelled it. -/
def Justified (routes : List (Route G J P)) (g : G) (steps : List (Step G J)) (r : Response) : Prop :=
  (∃ pre post req s g' later, steps = pre ++ .request req :: post ∧ run routes g pre = some s ∧ req.id = r.id ∧
    Answer routes s.global req g' r.body later) ∨
  (∃ pre post, steps = pre ++ .cancel r.id :: post ∧ r.id ∈ asked pre ∧ r.body = .err (-32800) "canceled by client".toList)

end Spec

open Spec

theorem tells_body (ran : Ran) : Tells ran ran.body := by
  match ran with
  | .returned v => exact .value v
  | .failed (.lsp code message) => exact .lsp code message
  | .failed .cancelled => exact .cancelled
  | .failed (.other message) => exact .other message
  | .panicked none => exact .panicked
  | .panicked (some m) => exact .panickedWith m

theorem tells_iff (ran : Ran) (b : Body) : Tells ran b ↔ ran.body = b := by
  constructor
  · intro h; cases h <;> rfl
  · rintro rfl; exact tells_body ran

/-- What the routes do with a request. -/
theorem routes_none (routes : List (Route G J P)) (s : State G) :
    routes.foldlM onRoute ((none : Option (Request J)), s) = some (none, s) := by
  induction routes with
  | nil => rfl
  | cons r rs ih => rw [List.foldlM_cons]; exact ih

theorem routes_skip (pre rest : List (Route G J P)) (req : Request J) (s : State G)
    (h : ∀ r ∈ pre, r.method ≠ req.method) :
    (pre ++ rest).foldlM onRoute (some req, s) = rest.foldlM onRoute (some req, s) := by
  induction pre with
  | nil => rfl
  | cons r pre ih =>
    rw [List.cons_append, List.foldlM_cons]
    have : onRoute (some req, s) r = some (some req, s) := by
      simp only [onRoute]
      rw [if_neg (fun e => h r (by simp) e.symm)]
    rw [this]
    exact ih fun r' hr => h r' (by simp [hr])

theorem route_or (routes : List (Route G J P)) (req : Request J) :
    (∀ r ∈ routes, r.method ≠ req.method) ∨ ∃ r, RouteOf routes req r := by
  induction routes with
  | nil => exact .inl (by simp)
  | cons r rs ih =>
    by_cases h : r.method = req.method
    · exact .inr ⟨r, [], rs, rfl, h, by simp⟩
    · rcases ih with ih | ⟨r', pre, post, e, h1, h2⟩
      · exact .inl (by simpa [h] using ih)
      · exact .inr ⟨r', r :: pre, post, by rw [e]; rfl, h1, by simpa [h] using h2⟩

theorem routeOf_unique {routes : List (Route G J P)} {req : Request J} {r r' : Route G J P}
    (h : RouteOf routes req r) (h' : RouteOf routes req r') : r = r' := by
  obtain ⟨pre, post, e, h1, h2⟩ := h
  obtain ⟨pre', post', e', h1', h2'⟩ := h'
  rw [e] at e'
  rcases List.append_eq_append_iff.1 e' with ⟨a, e1, e2⟩ | ⟨a, e1, e2⟩
  · cases a with
    | nil => simp at e2; exact e2.1
    | cons x a =>
      simp only [List.cons_append, List.cons.injEq] at e2
      exact absurd (e2.1 ▸ h1) (h2' x (by rw [e1]; simp))
  · cases a with
    | nil => simp at e2; exact e2.1.symm
    | cons x a =>
      simp only [List.cons_append, List.cons.injEq] at e2
      exact absurd (e2.1 ▸ h1') (h2 x (by rw [e1]; simp))

theorem routeOf_absent {routes : List (Route G J P)} {req : Request J} {r : Route G J P}
    (h : RouteOf routes req r) : ¬ ∀ r ∈ routes, r.method ≠ req.method := by
  obtain ⟨pre, post, e, h1, _⟩ := h
  exact fun hn => hn r (by rw [e]; simp) h1

/-- The request is in flight while it is dispatched. -/
def State.registered (s : State G) (id : RequestId) : State G :=
  { s with incoming := s.incoming.filter (· ≠ id) ++ [id] }

theorem dispatch_route {routes : List (Route G J P)} {req : Request J} {r : Route G J P} (h : RouteOf routes req r)
    (s : State G) : dispatch routes s req =
      (onRoute (some req, s.registered req.id) r).bind fun d => (match d.1 with | none => some d.2 | some _ => none) := by
  obtain ⟨pre, post, e, h1, h2⟩ := h
  unfold dispatch
  rw [e, routes_skip _ _ _ _ h2, List.foldlM_cons]
  show ((onRoute (some req, s.registered req.id) r).bind _).map finish = _
  have hgo : ∀ d, onRoute (some req, s.registered req.id) r = some d → d.1 = none := by
    intro d hd
    simp only [onRoute] at hd
    rw [if_pos h1.symm] at hd
    split at hd
    · cases hd; rfl
    · split at hd
      · split at hd
        · cases hd
        · cases hd; rfl
      · cases hd; rfl
      · cases hd; rfl
  cases ho : onRoute (some req, s.registered req.id) r with
  | none => rfl
  | some d =>
    obtain ⟨o, s'⟩ := d
    have := hgo _ ho
    simp only at this
    subst this
    simp only [Option.bind_some]
    rw [routes_none]
    rfl

/-- **C93**: a request gets exactly the answer of its first route, now or by a task; if its handler may change the state and
panics, and only then, the server ends. -/
theorem dispatch_answers (routes : List (Route G J P)) (s : State G) (req : Request J) :
    (Ends routes s.global req ∧ dispatch routes s req = none) ∨
    ∃ g' body later, Answer routes s.global req g' body later ∧ dispatch routes s req = some
      { global := g', tasks := s.tasks,
        incoming := s.incoming.filter (· ≠ req.id) ++ (if later then [req.id] else []),
        out := s.out ++ (if later then [] else [⟨req.id, body⟩]),
        jobs := s.jobs ++ (if later then [⟨req.id, body⟩] else []) } := by
  have hresp : ∀ (g' : G) (b : Body), State.respond { s.registered req.id with global := g' } ⟨req.id, b⟩ =
      { global := g', tasks := s.tasks, incoming := s.incoming.filter (· ≠ req.id) ++ [],
        out := s.out ++ [⟨req.id, b⟩], jobs := s.jobs ++ [] } := by
    intro g' b
    rw [State.respond, if_pos (by simp [State.registered])]
    simp [State.registered, List.filter_append, List.filter_filter]
  rcases route_or routes req with hn | ⟨r, hr⟩
  · right
    refine ⟨_, _, _, .unknown hn, ?_⟩
    have e : dispatch routes s req = some (State.respond { s.registered req.id with global := s.global }
        ⟨req.id, .err methodNotFound "unknown request".toList⟩) := by
      unfold dispatch
      have := routes_skip routes [] req (s.registered req.id) hn
      rw [List.append_nil] at this
      show (routes.foldlM onRoute (some req, s.registered req.id)).map finish = _
      rw [this]
      rfl
    rw [e, hresp]
    rfl
  · rw [dispatch_route hr]
    obtain ⟨_, _, _, hm, _⟩ := id hr
    simp only [onRoute]
    rw [if_pos hm.symm]
    cases hd : r.decode req.params with
    | error e =>
      right
      refine ⟨_, _, _, .malformed hr hd, ?_⟩
      simp only [Option.bind_some]
      exact congrArg some (hresp s.global _)
    | ok p =>
      cases hh : r.handler with
      | syncMut f =>
        cases hf : f s.global p with
        | mk g' ran =>
          have hf' : f (s.registered req.id).global p = (g', ran) := hf
          simp only [hf']
          cases ran with
          | panicked m => exact .inl ⟨⟨r, p, f, g', m, hr, hd, hh, hf⟩, rfl⟩
          | returned v =>
            right
            refine ⟨g', _, false, .syncMut hr hd hh hf (by simp) (tells_body _), ?_⟩
            exact congrArg some (hresp g' _)
          | failed e =>
            right
            refine ⟨g', _, false, .syncMut hr hd hh hf (by simp) (tells_body _), ?_⟩
            exact congrArg some (hresp g' _)
      | sync f =>
        right
        refine ⟨_, _, false, .sync hr hd hh (tells_body _), ?_⟩
        exact congrArg some (hresp s.global _)
      | pool f =>
        right
        refine ⟨_, _, true, .pool hr hd hh (tells_body _), ?_⟩
        simp [State.registered]

/-- The answer to a request is determined. -/
theorem answer_unique {routes : List (Route G J P)} {g : G} {req : Request J} {g1 g2 : G} {b1 b2 : Body} {l1 l2 : Bool}
    (h1 : Answer routes g req g1 b1 l1) (h2 : Answer routes g req g2 b2 l2) : g1 = g2 ∧ b1 = b2 ∧ l1 = l2 := by
  have key : ∀ {r p f r' p' f'}, RouteOf routes req r → r.decode req.params = .ok p → r.handler = f →
      RouteOf routes req r' → r'.decode req.params = .ok p' → r'.handler = f' → p = p' ∧ f = f' := by
    intro r p f r' p' f' hr hd hh hr' hd' hh'
    obtain rfl := routeOf_unique hr hr'
    rw [hd] at hd'; cases hd'
    exact ⟨rfl, hh.symm.trans hh'⟩
  have bad : ∀ {r e r' p'}, RouteOf routes req r → r.decode req.params = .error e →
      RouteOf routes req r' → r'.decode req.params = .ok p' → False := by
    intro r e r' p' hr hd hr' hd'
    obtain rfl := routeOf_unique hr hr'
    rw [hd] at hd'; cases hd'
  cases h1 with
  | unknown hn =>
    cases h2 with
    | unknown => exact ⟨rfl, rfl, rfl⟩
    | malformed hr => exact absurd hn (routeOf_absent hr)
    | syncMut hr => exact absurd hn (routeOf_absent hr)
    | sync hr => exact absurd hn (routeOf_absent hr)
    | pool hr => exact absurd hn (routeOf_absent hr)
  | malformed hr hd =>
    cases h2 with
    | unknown hn => exact absurd hn (routeOf_absent hr)
    | malformed hr' hd' =>
      obtain rfl := routeOf_unique hr hr'
      rw [hd] at hd'; cases hd'
      exact ⟨rfl, rfl, rfl⟩
    | syncMut hr' hd' => exact (bad hr hd hr' hd').elim
    | sync hr' hd' => exact (bad hr hd hr' hd').elim
    | pool hr' hd' => exact (bad hr hd hr' hd').elim
  | syncMut hr hd hh hf _ ht =>
    cases h2 with
    | unknown hn => exact absurd hn (routeOf_absent hr)
    | malformed hr' hd' => exact (bad hr' hd' hr hd).elim
    | syncMut hr' hd' hh' hf' _ ht' =>
      obtain ⟨rfl, e⟩ := key hr hd hh hr' hd' hh'
      cases e
      rw [hf] at hf'; cases hf'
      exact ⟨rfl, ((tells_iff _ _).1 ht).symm.trans ((tells_iff _ _).1 ht'), rfl⟩
    | sync hr' hd' hh' => cases (key hr hd hh hr' hd' hh').2
    | pool hr' hd' hh' => cases (key hr hd hh hr' hd' hh').2
  | sync hr hd hh ht =>
    cases h2 with
    | unknown hn => exact absurd hn (routeOf_absent hr)
    | malformed hr' hd' => exact (bad hr' hd' hr hd).elim
    | syncMut hr' hd' hh' => cases (key hr hd hh hr' hd' hh').2
    | sync hr' hd' hh' ht' =>
      obtain ⟨rfl, e⟩ := key hr hd hh hr' hd' hh'
      cases e
      exact ⟨rfl, ((tells_iff _ _).1 ht).symm.trans ((tells_iff _ _).1 ht'), rfl⟩
    | pool hr' hd' hh' => cases (key hr hd hh hr' hd' hh').2
  | pool hr hd hh ht =>
    cases h2 with
    | unknown hn => exact absurd hn (routeOf_absent hr)
    | malformed hr' hd' => exact (bad hr' hd' hr hd).elim
    | syncMut hr' hd' hh' => cases (key hr hd hh hr' hd' hh').2
    | sync hr' hd' hh' => cases (key hr hd hh hr' hd' hh').2
    | pool hr' hd' hh' ht' =>
      obtain ⟨rfl, e⟩ := key hr hd hh hr' hd' hh'
      cases e
      exact ⟨rfl, ((tells_iff _ _).1 ht).symm.trans ((tells_iff _ _).1 ht'), rfl⟩

/-! ### Runs -/

theorem asked_append (a b : List (Step G J)) : asked (a ++ b) = asked a ++ asked b := by
  induction a with
  | nil => rfl
  | cons x a ih => cases x <;> simp [asked, ih]

/-- The state of a run: who was asked is answered or in flight, and a request in flight has a task. -/
structure Inv (routes : List (Route G J P)) (g : G) (steps : List (Step G J)) (s : State G) : Prop where
  perm : (s.out.map (·.id) ++ s.incoming).Perm (asked steps)
  task : ∀ id ∈ s.incoming, id ∈ s.jobs.map (·.id) ∨ id ∈ s.tasks.map (·.id)
  out : ∀ r ∈ s.out, Justified routes g steps r
  pending : ∀ r, r ∈ s.jobs ∨ r ∈ s.tasks → Justified routes g steps r

theorem Spec.Justified.grow {routes : List (Route G J P)} {g : G} {steps : List (Step G J)} {r : Response}
    (h : Justified routes g steps r) (x : Step G J) : Justified routes g (steps ++ [x]) r := by
  rcases h with ⟨pre, post, req, s, g', later, e, h⟩ | ⟨pre, post, e, h⟩
  · exact .inl ⟨pre, post ++ [x], req, s, g', later, by rw [e]; simp, h⟩
  · exact .inr ⟨pre, post ++ [x], by rw [e]; simp, h⟩

theorem filter_ne_perm {l : List RequestId} (hn : l.Nodup) {id : RequestId} (h : id ∈ l) :
    (id :: l.filter (· ≠ id)).Perm l := by
  induction l with
  | nil => cases h
  | cons x l ih =>
    rw [List.nodup_cons] at hn
    by_cases hx : x = id
    · subst hx
      have : (x :: l).filter (· ≠ x) = l := by
        rw [List.filter_cons_of_neg (by simp), List.filter_eq_self]
        intro a ha
        simp
        rintro rfl
        exact hn.1 ha
      rw [this]
    · rw [List.filter_cons_of_pos (by simpa using hx)]
      have h' : id ∈ l := by
        rcases List.mem_cons.1 h with h | h
        · exact absurd h.symm hx
        · exact h
      exact (List.Perm.swap _ _ _).trans ((ih hn.2 h').cons x)

theorem Inv.incoming_nodup {routes : List (Route G J P)} {g : G} {steps : List (Step G J)} {s : State G}
    (h : Inv routes g steps s) (hn : (asked steps).Nodup) : s.incoming.Nodup :=
  (List.nodup_append.1 ((h.perm.nodup_iff).2 hn)).2.1

theorem inv_step {routes : List (Route G J P)} {g : G} {steps : List (Step G J)} {s s' : State G}
    (hrun : run routes g steps = some s) (h : Inv routes g steps s) (x : Step G J) (hn : (asked (steps ++ [x])).Nodup)
    (hs : step routes s x = some s') : Inv routes g (steps ++ [x]) s' := by
  have hn0 : (asked steps).Nodup := by
    rw [asked_append] at hn; exact (List.nodup_append.1 hn).1
  have hin := h.incoming_nodup hn0
  have hsub : ∀ id ∈ s.incoming, id ∈ asked steps := fun id hid => h.perm.mem_iff.1 (List.mem_append_right _ hid)
  cases x with
  | request req =>
    have hfresh : req.id ∉ asked steps := by
      rw [asked_append] at hn
      intro hc
      exact (List.nodup_append.1 hn).2.2 _ hc _ (by simp [asked]) rfl
    have hfil : s.incoming.filter (· ≠ req.id) = s.incoming := by
      rw [List.filter_eq_self]
      intro a ha
      simp
      rintro rfl
      exact hfresh (hsub _ ha)
    have hs : dispatch routes s req = some s' := hs
    rcases dispatch_answers routes s req with ⟨_, e⟩ | ⟨g', body, later, ha, e⟩
    · rw [e] at hs; cases hs
    · rw [e] at hs
      cases hs
      have hj : Justified routes g (steps ++ [.request req]) ⟨req.id, body⟩ :=
        .inl ⟨steps, [], req, s, g', later, rfl, hrun, rfl, ha⟩
      rw [hfil]
      cases later with
      | true =>
        refine ⟨?_, ?_, ?_, ?_⟩
        · rw [asked_append]
          simp only [if_true, List.append_nil, asked]
          rw [← List.append_assoc]
          exact h.perm.append_right _
        · intro id hid
          rcases List.mem_append.1 hid with hid | hid
          · rcases h.task id hid with ht | ht
            · exact .inl (by simp only [List.map_append, List.mem_append]; exact .inl ht)
            · exact .inr ht
          · simp at hid
            subst hid
            exact .inl (by simp)
        · intro r hr
          simp at hr
          exact (h.out r hr).grow _
        · intro r hr
          simp only [if_true, List.mem_append, List.mem_singleton] at hr
          rcases hr with (hr | rfl) | hr
          · exact (h.pending r (.inl hr)).grow _
          · exact hj
          · exact (h.pending r (.inr hr)).grow _
      | false =>
        refine ⟨?_, ?_, ?_, ?_⟩
        · rw [asked_append]
          simp only [asked, List.map_append, List.append_nil, List.map_cons, List.map_nil, Bool.false_eq_true, if_false]
          rw [List.append_assoc]
          refine List.Perm.trans ?_ (h.perm.append_right [req.id])
          rw [List.append_assoc]
          exact (List.perm_append_comm).append_left _
        · intro id hid
          simp at hid
          rcases h.task id hid with ht | ht
          · exact .inl (by simpa using ht)
          · exact .inr ht
        · intro r hr
          simp only [List.mem_append, List.mem_singleton, Bool.false_eq_true, if_false] at hr
          rcases hr with hr | rfl
          · exact (h.out r hr).grow _
          · exact hj
        · intro r hr
          simp at hr
          exact (h.pending r hr).grow _
  | cancel id =>
    have hs : some (s.cancel id) = some s' := hs
    cases hs
    have easked : asked (steps ++ [Step.cancel id]) = asked steps := by rw [asked_append]; simp [asked]
    unfold State.cancel
    by_cases hid : id ∈ s.incoming
    · rw [if_pos hid]
      refine ⟨?_, ?_, ?_, ?_⟩
      · rw [easked]
        simp only [List.map_append, List.map_cons, List.map_nil, List.append_assoc]
        exact ((filter_ne_perm hin hid).append_left _).trans h.perm
      · intro x hx
        exact h.task x (List.mem_filter.1 hx).1
      · intro r hr
        rcases List.mem_append.1 hr with hr | hr
        · exact (h.out r hr).grow _
        · rw [List.mem_singleton] at hr
          subst hr
          exact .inr ⟨steps, [], rfl, hsub _ hid, rfl⟩
      · intro r hr; exact (h.pending r hr).grow _
    · rw [if_neg hid]
      exact ⟨easked ▸ h.perm, h.task, fun r hr => (h.out r hr).grow _, fun r hr => (h.pending r hr).grow _⟩
  | other f =>
    cases hs
    have easked : asked (steps ++ [Step.other f]) = asked steps := by rw [asked_append]; simp [asked]
    exact ⟨easked ▸ h.perm, h.task, fun r hr => (h.out r hr).grow _, fun r hr => (h.pending r hr).grow _⟩
  | ended i =>
    have easked : asked (steps ++ [Step.ended (G := G) (J := J) i]) = asked steps := by rw [asked_append]; simp [asked]
    simp only [step] at hs
    cases hj : s.jobs[i]? with
    | none =>
      rw [hj] at hs
      cases hs
      exact ⟨easked ▸ h.perm, h.task, fun r hr => (h.out r hr).grow _, fun r hr => (h.pending r hr).grow _⟩
    | some r0 =>
      rw [hj] at hs
      cases hs
      have hmem : ∀ r, r ∈ s.jobs → r = r0 ∨ r ∈ s.jobs.eraseIdx i := by
        intro r hr
        obtain ⟨k, hk, hrk⟩ := List.getElem_of_mem hr
        by_cases hki : k = i
        · subst hki
          rw [List.getElem?_eq_getElem hk] at hj
          cases hj
          exact .inl hrk.symm
        · right
          rw [List.mem_eraseIdx_iff_getElem]
          exact ⟨k, hk, hki, hrk⟩
      refine ⟨easked ▸ h.perm, ?_, fun r hr => (h.out r hr).grow _, ?_⟩
      · intro id hid
        rcases h.task id hid with ht | ht
        · obtain ⟨r, hr, rfl⟩ := List.mem_map.1 ht
          rcases hmem r hr with rfl | hr
          · exact .inr (by simp)
          · exact .inl (List.mem_map_of_mem hr)
        · exact .inr (by simp only [List.map_append, List.mem_append]; exact .inl ht)
      · intro r hr
        rcases hr with hr | hr
        · exact (h.pending r (.inl (List.mem_of_mem_eraseIdx hr))).grow _
        · rcases List.mem_append.1 hr with hr | hr
          · exact (h.pending r (.inr hr)).grow _
          · rw [List.mem_singleton] at hr
            subst hr
            exact (h.pending r (.inl (List.mem_of_getElem? hj))).grow _
  | taken =>
    have easked : asked (steps ++ [Step.taken (G := G) (J := J)]) = asked steps := by rw [asked_append]; simp [asked]
    simp only [step] at hs
    cases ht : s.tasks with
    | nil =>
      rw [ht] at hs
      cases hs
      exact ⟨easked ▸ h.perm, h.task, fun r hr => (h.out r hr).grow _, fun r hr => (h.pending r hr).grow _⟩
    | cons r0 rest =>
      rw [ht] at hs
      cases hs
      have hr0 : Justified routes g steps r0 := h.pending r0 (.inr (by rw [ht]; simp))
      unfold State.respond
      by_cases hid : r0.id ∈ s.incoming
      · rw [if_pos hid]
        refine ⟨?_, ?_, ?_, ?_⟩
        · rw [easked]
          simp only [List.map_append, List.map_cons, List.map_nil, List.append_assoc]
          exact ((filter_ne_perm hin hid).append_left _).trans h.perm
        · intro x hx
          obtain ⟨hx, hne⟩ := List.mem_filter.1 hx
          have hne : x ≠ r0.id := by simpa using hne
          rcases h.task x hx with h1 | h1
          · exact .inl h1
          · rw [ht, List.map_cons, List.mem_cons] at h1
            exact .inr (h1.resolve_left hne)
        · intro r hr
          rcases List.mem_append.1 hr with hr | hr
          · exact (h.out r hr).grow _
          · rw [List.mem_singleton] at hr
            subst hr
            exact hr0.grow _
        · intro r hr
          rcases hr with hr | hr
          · exact (h.pending r (.inl hr)).grow _
          · exact (h.pending r (.inr (by rw [ht]; exact List.mem_cons_of_mem _ hr))).grow _
      · rw [if_neg hid]
        refine ⟨easked ▸ h.perm, ?_, fun r hr => (h.out r hr).grow _, ?_⟩
        · intro x hx
          rcases h.task x hx with h1 | h1
          · exact .inl h1
          · rw [ht, List.map_cons, List.mem_cons] at h1
            exact .inr (h1.resolve_left (by rintro rfl; exact hid hx))
        · intro r hr
          rcases hr with hr | hr
          · exact (h.pending r (.inl hr)).grow _
          · exact (h.pending r (.inr (by rw [ht]; exact List.mem_cons_of_mem _ hr))).grow _

theorem inv_run (routes : List (Route G J P)) (g : G) : ∀ (n : Nat) (steps : List (Step G J)) (s : State G), steps.length = n →
    (asked steps).Nodup → run routes g steps = some s → Inv routes g steps s := by
  intro n
  induction n with
  | zero =>
    intro steps s hl _ hr
    rw [List.length_eq_zero_iff.1 hl] at hr ⊢
    cases hr
    exact ⟨.refl _, by simp, by simp, by simp⟩
  | succ n ih =>
    intro steps s hl hn hr
    obtain ⟨pre, x, rfl⟩ : ∃ pre x, steps = pre ++ [x] := by
      cases h : steps with
      | nil => rw [h] at hl; cases hl
      | cons a as => exact ⟨_, _, (List.dropLast_concat_getLast (List.cons_ne_nil a as)).symm⟩
    have e : run routes g (pre ++ [x]) = (run routes g pre).bind fun s => step routes s x := by
      unfold run
      rw [List.foldlM_append]
      cases pre.foldlM (step routes) ⟨g, [], [], [], []⟩ with
      | none => rfl
      | some s0 =>
        show ([x].foldlM (step routes) s0) = step routes s0 x
        rw [List.foldlM_cons]
        cases step routes s0 x <;> rfl
    rw [e] at hr
    cases hp : run routes g pre with
    | none => rw [hp] at hr; cases hr
    | some s0 =>
      rw [hp] at hr
      have hnp : (asked pre).Nodup := by
        rw [asked_append] at hn; exact (List.nodup_append.1 hn).1
      exact inv_step hp (ih pre s0 (by simpa using hl) hnp hp) x hn hr

/-- **C93**: whatever the routes, and in whatever order requests come, are cancelled, tasks of the pool end and
the main loop takes their answers: every request gets at most one response; once no task is left it has exactly one; no
other response is sent; and each response is the one of the request's route, or says that the client cancelled it. -/
theorem answered_once (routes : List (Route G J P)) (g : G) (steps : List (Step G J)) (s : State G)
    (hn : (asked steps).Nodup) (h : run routes g steps = some s) :
    (s.out.map (·.id)).Nodup ∧ (∀ r ∈ s.out, r.id ∈ asked steps) ∧
    (s.jobs = [] → s.tasks = [] → (s.out.map (·.id)).Perm (asked steps)) ∧
    ∀ r ∈ s.out, Justified routes g steps r := by
  have hi := inv_run routes g _ steps s rfl hn h
  refine ⟨(List.nodup_append.1 ((hi.perm.nodup_iff).2 hn)).1, ?_, ?_, hi.out⟩
  · intro r hr
    exact hi.perm.mem_iff.1 (List.mem_append_left _ (List.mem_map_of_mem hr))
  · intro hj ht
    have : s.incoming = [] := by
      cases hc : s.incoming with
      | nil => rfl
      | cons id l =>
        have := hi.task id (by rw [hc]; simp)
        rw [hj, ht] at this
        simp at this
    have hp := hi.perm
    rwa [this, List.append_nil] at hp

/-- Three routes: one that counts, one that panics in the pool, one that is cancelled. -/
def sampleRoutes : List (Route Nat Bool Unit) :=
  let decode : Bool → Except Text Unit := fun b => if b then .ok () else .error "bad".toList
  [⟨"count".toList, decode, .syncMut fun n _ => (n + 1, .returned "done".toList)⟩,
   ⟨"panic".toList, decode, .pool fun _ _ => .panicked (some "oops".toList)⟩,
   ⟨"read".toList, decode, .sync fun _ _ => .failed .cancelled⟩]

def sampleSteps : List (Step Nat Bool) :=
  [.request ⟨.num 1, "panic".toList, true⟩, .request ⟨.num 2, "count".toList, true⟩,
   .request ⟨.num 3, "read".toList, true⟩, .request ⟨.num 4, "read".toList, false⟩,
   .request ⟨.num 5, "panic".toList, true⟩, .cancel (.num 5), .ended 0, .ended 0, .taken, .taken,
   .request ⟨.num 6, "none".toList, true⟩]

example : (asked sampleSteps).Nodup ∧ (run sampleRoutes 0 sampleSteps).map (fun s => (s.global, s.out, s.jobs, s.tasks)) =
    some (1, [⟨.num 2, .ok "done".toList⟩, ⟨.num 3, .err (-32801) "content modified".toList⟩,
      ⟨.num 4, .err (-32602) "bad".toList⟩, ⟨.num 5, .err (-32800) "canceled by client".toList⟩,
      ⟨.num 1, .err (-32603) "server panicked: oops".toList⟩, ⟨.num 6, .err (-32601) "unknown request".toList⟩], [], []) := by
  decide +kernel

end Verif.Server.Dispatch
