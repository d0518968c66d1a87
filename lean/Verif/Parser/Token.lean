import Verif.Parser.HighLevel
import Verif.Parser.Stream

set_option autoImplicit false

/-!
A third machine for the grammar, whose input is the list of significant tokens.  What the parser
sees of the trivia (`nth` with 1 and 2) is noted at each token.  The machine does not check the
use of markers: it agrees with the high-level machine wherever that one does not complain, and
`root_good` says that it never does.
-/

namespace Verif.Parser

open Lexer

/-- A significant token, with what `nth 1` and `nth 2` return when it is the current one. -/
structure Tok where
  kind : Kind
  text : Text
  la1 : Kind
  la2 : Kind

/-- A token followed by `ts`, annotated. -/
def Tok.of (x : Kind × Text) (ts : List (Kind × Text)) : Tok :=
  ⟨x.1, x.2, headKind (ts.dropWhile (·.1 == .WHITESPACE)), headKind (ts.drop 1)⟩

/-- The significant tokens, annotated. -/
def annotSig : List (Kind × Text) → List Tok
  | [] => []
  | x :: ts => if x.1.isTrivia then annotSig ts else Tok.of x ts :: annotSig ts

/-- The first token, whatever it is, and the significant ones behind it. -/
def annot : List (Kind × Text) → List Tok
  | [] => []
  | x :: ts => Tok.of x ts :: annotSig ts

theorem annot_skip (ts : List (Kind × Text)) : annot (skip ts) = annotSig ts := by
  induction ts with
  | nil => rfl
  | cons x ts ih =>
    unfold skip annotSig
    rw [List.dropWhile_cons]
    cases h : x.1.isTrivia with
    | true => simp only [if_true]; exact ih
    | false => rfl

structure TState where
  toks : List Tok
  /-- how often `nth` has been called -/
  used : Nat
  n : Nat
  items : Forest
  outer : List (Forest × Forest)

/-- The kinds that `current`, `nth 1` and `nth 2` see. -/
def kind0 : List Tok → Kind
  | [] => .EOF
  | t :: _ => t.kind
def kind1 : List Tok → Kind
  | [] => .EOF
  | t :: _ => t.la1
def kind2 : List Tok → Kind
  | [] => .EOF
  | t :: _ => t.la2
def text0 : List Tok → Text
  | [] => []
  | t :: _ => t.text

/-- `nth` without the limit on the number of its calls. -/
def tNth (n : Nat) (s : TState) : Out TState Kind :=
  match n with
  | 0 => .ok (kind0 s.toks) { s with used := s.used + 1 }
  | 1 => .ok (kind1 s.toks) { s with used := s.used + 1 }
  | 2 => .ok (kind2 s.toks) { s with used := s.used + 1 }
  | _ + 3 => .panic .lookahead

/-- `nth` with the limit. -/
def tNthLimited (n : Nat) (s : TState) : Out TState Kind :=
  if n ≤ 3 then if s.used ≤ stepLimit then tNth n s else .panic .stuck else .panic .lookahead

def tComplete (m : Marker) (kind : Kind) (s : TState) : Out TState Completed :=
  match s.outer with
  | (pre, items) :: rest =>
    .ok ⟨m.pos, s.n, kind⟩ { s with n := s.n + 1, items := .node items kind pre s.items, outer := rest }
  | [] => .panic .events

def tAbandon (s : TState) : Out TState Unit :=
  match s.outer with
  | (_, items) :: rest =>
    if s.items = .nil then .ok () { s with n := s.n - 1, items := items, outer := rest }
    else .ok () { s with items := (Forest.tomb items).append s.items, outer := rest }
  | [] => .panic .events

def tPrecede (s : TState) : Out TState Marker :=
  match s.items with
  | .node init kind pre kids =>
    .ok ⟨s.n⟩ { s with n := s.n + 1, items := .nil, outer := (.node .nil kind pre kids, init) :: s.outer }
  | _ => .panic .events

/-- The operations on significant tokens, with no limit on the number of lookups. -/
def tokenFree : Machine TState where
  current s := kind0 s.toks
  currentText s := .ok (text0 s.toks) s
  nth := tNth
  doBump kind s := .ok () { s with toks := s.toks.tail, n := s.n + 1, items := .tok s.items kind }
  start s := .ok ⟨s.n⟩ { s with n := s.n + 1, items := .nil, outer := (.nil, s.items) :: s.outer }
  complete := tComplete
  abandon _ := tAbandon
  precede _ := tPrecede
  error msg s := .ok () { s with n := s.n + 1, items := .err s.items msg }

/-- The same with the limit. -/
def tokenLevel : Machine TState := { tokenFree with nth := tNthLimited }

/-- The two states represent the same situation. -/
structure TRep (h : HState) (t : TState) : Prop where
  toks : ∃ ts, Stands h.lexer ts ∧ t.toks = annot ts
  used : t.used = h.steps
  n : t.n = h.n
  items : t.items = h.items
  outer : t.outer = h.outer.map fun s => (s.pre, s.items)

theorem kind0_annot (ts : List (Kind × Text)) : kind0 (annot ts) = headKind ts := by
  cases ts <;> rfl

theorem kind1_annot (ts : List (Kind × Text)) :
    kind1 (annot ts) = headKind (ts.tail.dropWhile (·.1 == .WHITESPACE)) := by
  cases ts <;> rfl

theorem kind2_annot (ts : List (Kind × Text)) : kind2 (annot ts) = headKind (ts.tail.drop 1) := by
  cases ts <;> rfl

theorem text0_annot (ts : List (Kind × Text)) : text0 (annot ts) = headText ts := by
  cases ts <;> rfl

theorem tail_annot (ts : List (Kind × Text)) : (annot ts).tail = annotSig ts.tail := by
  cases ts <;> rfl

theorem token_nth {h : HState} {t : TState} (n : Nat) (r : TRep h t) :
    AgreeR TRep (hNth n h) (tNthLimited n t) := by
  obtain ⟨toks, used, n', items, outer⟩ := t
  obtain ⟨⟨ts, hst, ht⟩, h2, h3, h4, h5⟩ := r
  simp only at ht h2 h3 h4 h5
  subst ht h2 h3 h4 h5
  unfold hNth tNthLimited
  by_cases hn : n ≤ 3
  · rw [if_pos hn, if_pos hn]
    by_cases hl : h.steps ≤ stepLimit
    · rw [if_pos hl, if_pos hl]
      match n, hn with
      | 0, _ =>
        refine ⟨⟨annot ts, h.steps + 1, h.n, h.items, h.outer.map fun s => (s.pre, s.items)⟩, ?_, ⟨ts, hst, rfl⟩, rfl, rfl, rfl, rfl⟩
        show Out.ok (kind0 (annot ts)) _ = Out.ok h.lexer.token.kind _
        rw [kind0_annot, hst.kind]
      | 1, _ =>
        obtain ⟨tk, h1, h2⟩ := hst.lookahead
        rw [if_pos (by omega), show h.lexer.lookaheadNth 1 = some tk from h1]
        refine ⟨⟨annot ts, h.steps + 1, h.n, h.items, h.outer.map fun s => (s.pre, s.items)⟩, ?_, ⟨ts, hst, rfl⟩, rfl, rfl, rfl, rfl⟩
        show Out.ok (kind1 (annot ts)) _ = Out.ok tk.kind _
        rw [kind1_annot, h2]
      | 2, _ =>
        obtain ⟨tk, h1, h2⟩ := hst.lookahead2
        rw [if_pos (by omega), show h.lexer.lookaheadNth 2 = some tk from h1]
        refine ⟨⟨annot ts, h.steps + 1, h.n, h.items, h.outer.map fun s => (s.pre, s.items)⟩, ?_, ⟨ts, hst, rfl⟩, rfl, rfl, rfl, rfl⟩
        show Out.ok (kind2 (annot ts)) _ = Out.ok tk.kind _
        rw [kind2_annot, h2]
      | 3, _ => rfl
    · rw [if_neg hl, if_neg hl]
      rfl
  · rw [if_neg hn, if_neg hn]
    rfl

/-- The machine on tokens does what the high-level machine does. -/
theorem tokenLevel_agree : MachineAgree TRep highLevel tokenLevel where
  current h t r := by
    obtain ⟨ts, hst, ht⟩ := r.toks
    show kind0 t.toks = h.lexer.token.kind
    rw [ht, kind0_annot, hst.kind]
  currentText h t r := by
    obtain ⟨ts, hst, ht⟩ := r.toks
    obtain ⟨_, _, _, _, _, _, hc⟩ := hst.tail
    show AgreeR TRep (match h.lexer.currentText with | some t => .ok t h | none => .panic .lexer) _
    rw [hc]
    refine ⟨t, ?_, r⟩
    show Out.ok (text0 t.toks) t = _
    rw [ht, text0_annot]
  nth n _ _ r := token_nth n r
  doBump k h t r := by
    obtain ⟨ts, hst, ht⟩ := r.toks
    obtain ⟨lx', h1, h2⟩ := hst.bump
    show AgreeR TRep (hDoBump k h) _
    unfold hDoBump
    rw [h1]
    refine ⟨_, rfl, ⟨_, h2, ?_⟩, r.used, ?_, ?_, r.outer⟩
    · show t.toks.tail = _
      rw [ht, tail_annot, annot_skip]
    · show t.n + 1 = h.n + 1
      rw [r.n]
    · show Forest.tok t.items k = _
      rw [r.items]
  start h t r := by
    obtain ⟨toks, fuel, n, items, outer⟩ := t
    obtain ⟨h1, h2, rfl, rfl, rfl⟩ := r
    exact ⟨_, rfl, h1, h2, rfl, rfl, rfl⟩
  complete m k h t r := by
    obtain ⟨toks, fuel, n, items, outer⟩ := t
    obtain ⟨h1, h2, rfl, rfl, rfl⟩ := r
    show AgreeR TRep (hComplete m k h) (tComplete m k _)
    unfold hComplete tComplete
    cases h.outer with
    | nil => trivial
    | cons s rest =>
      simp only [List.map_cons]
      split
      · exact ⟨_, rfl, h1, h2, rfl, rfl, rfl⟩
      · trivial
  abandon m h t r := by
    obtain ⟨toks, fuel, n, items, outer⟩ := t
    obtain ⟨h1, h2, rfl, rfl, rfl⟩ := r
    show AgreeR TRep (hAbandon m h) (tAbandon _)
    unfold hAbandon tAbandon
    cases h.outer with
    | nil => trivial
    | cons s rest =>
      simp only [List.map_cons]
      split
      · split
        · exact ⟨_, rfl, h1, h2, rfl, rfl, rfl⟩
        · exact ⟨_, rfl, h1, h2, rfl, rfl, rfl⟩
      · trivial
  precede c h t r := by
    obtain ⟨toks, fuel, n, items, outer⟩ := t
    obtain ⟨h1, h2, rfl, rfl, rfl⟩ := r
    show AgreeR TRep (hPrecede c h) (tPrecede _)
    unfold hPrecede tPrecede
    cases h.items with
    | node init kind pre kids =>
      simp only
      split
      · exact ⟨_, rfl, h1, h2, rfl, rfl, rfl⟩
      · trivial
    | _ => trivial
  error msg h t r := by
    obtain ⟨toks, fuel, n, items, outer⟩ := t
    obtain ⟨h1, h2, rfl, rfl, rfl⟩ := r
    exact ⟨_, rfl, h1, h2, rfl, rfl, rfl⟩

/-! ## Runs without a bound on the depth -/

/-- Where a program gets without the functions it calls. -/
inductive Stage (α : Type) where
  | done (a : α) (s : TState)
  | call (f : Fn) (s : TState) (k : f.Res → Prog α)
  | panic (w : Panic)
  | outOfFuel

def Stage.ofOut {α β : Type} (o : Out TState β) (f : β → TState → Stage α) : Stage α :=
  match o with
  | .ok b s => f b s
  | .panic w => .panic w
  | .outOfFuel => .outOfFuel

def exec {α : Type} : Prog α → TState → Stage α
  | .pure a, s => .done a s
  | .panic w, _ => .panic w
  | .current k, s => exec (k (tokenFree.current s)) s
  | .currentText k, s => .ofOut (tokenFree.currentText s) fun t s' => exec (k t) s'
  | .nth n k, s => .ofOut (tokenFree.nth n s) fun x s' => exec (k x) s'
  | .doBump kind k, s => .ofOut (tokenFree.doBump kind s) fun _ s' => exec k s'
  | .start k, s => .ofOut (tokenFree.start s) fun m s' => exec (k m) s'
  | .complete m kind k, s => .ofOut (tokenFree.complete m kind s) fun c s' => exec (k c) s'
  | .abandon m k, s => .ofOut (tokenFree.abandon m s) fun _ s' => exec k s'
  | .precede c k, s => .ofOut (tokenFree.precede c s) fun m s' => exec (k m) s'
  | .error msg k, s => .ofOut (tokenFree.error msg s) fun _ s' => exec k s'
  | .call f k, s => .call f s k

/-- `Runs p s a s'`: the program `p` leads from `s` to `s'` and returns `a`. -/
inductive Runs : {α : Type} → Prog α → TState → α → TState → Prop where
  | done {α : Type} {p : Prog α} {s s' : TState} {a : α} : exec p s = .done a s' → Runs p s a s'
  | call {α : Type} {p : Prog α} {s s1 s2 s' : TState} {a : α} {f : Fn} {r : f.Res}
      {k : f.Res → Prog α} :
      exec p s = .call f s1 k → Runs (body f) s1 r s2 → Runs (k r) s2 a s' → Runs p s a s'

theorem run_exec {α : Type} (c : (f : Fn) → TState → Out TState f.Res) (p : Prog α) (s : TState) :
    run tokenFree c p s =
      match exec p s with
      | .done a s' => .ok a s'
      | .call f s1 k => (c f s1).bind fun r s2 => run tokenFree c (k r) s2
      | .panic w => .panic w
      | .outOfFuel => .outOfFuel := by
  have key : ∀ {β : Type} (o : Out TState β) (f : β → TState → Out TState α) (g : β → TState → Stage α),
      (∀ b s, f b s = match g b s with
        | .done a s' => .ok a s'
        | .call f s1 k => (c f s1).bind fun r s2 => run tokenFree c (k r) s2
        | .panic w => .panic w
        | .outOfFuel => .outOfFuel) →
      o.bind f = match Stage.ofOut o g with
        | .done a s' => .ok a s'
        | .call f s1 k => (c f s1).bind fun r s2 => run tokenFree c (k r) s2
        | .panic w => .panic w
        | .outOfFuel => .outOfFuel := by
    intro β o f g h
    cases o with
    | ok b s => exact h b s
    | panic w => rfl
    | outOfFuel => rfl
  induction p generalizing s with
  | pure a => rfl
  | panic w => rfl
  | current k ih => exact ih _ s
  | currentText k ih => exact key _ _ _ fun b s => ih b s
  | nth n k ih => exact key _ _ _ fun b s => ih b s
  | doBump kind k ih => exact key _ _ _ fun _ s => ih s
  | start k ih => exact key _ _ _ fun b s => ih b s
  | complete m kind k ih => exact key _ _ _ fun b s => ih b s
  | abandon m k ih => exact key _ _ _ fun _ s => ih s
  | precede c' k ih => exact key _ _ _ fun b s => ih b s
  | error msg k ih => exact key _ _ _ fun _ s => ih s
  | call f k ih => rfl

/-- Such a run is a run with enough depth. -/
theorem Runs.run {α : Type} {p : Prog α} {s s' : TState} {a : α} (h : Runs p s a s') :
    ∃ N, ∀ n, N ≤ n → Verif.Parser.run tokenFree (callN tokenFree body n) p s = .ok a s' := by
  induction h with
  | done h =>
    refine ⟨0, fun n _ => ?_⟩
    rw [run_exec, h]
  | call h _ _ ih1 ih2 =>
    obtain ⟨N1, h1⟩ := ih1
    obtain ⟨N2, h2⟩ := ih2
    refine ⟨N1 + 1 + N2, fun n hn => ?_⟩
    rw [run_exec, h]
    obtain ⟨m, rfl⟩ : ∃ m, n = m + 1 := ⟨n - 1, by omega⟩
    simp only [callN, h1 m (by omega)]
    exact h2 (m + 1) (by omega)

/-! ## The limit -/

/-- A run without the limit is a run with the limit if the number of lookups stays below it, and
otherwise the run with the limit panics. -/
def Below {α : Type} (x y : Out TState α) (u : Nat) : Prop :=
  ∀ a s', x = .ok a s' → u ≤ s'.used ∧ (s'.used ≤ stepLimit + 1 → y = .ok a s') ∧
    (u ≤ stepLimit + 1 → stepLimit + 1 < s'.used → y = .panic .stuck)

theorem below_bind {α β : Type} {x y : Out TState α} {f g : α → TState → Out TState β} {u : Nat}
    (h : Below x y u) (hf : ∀ a s, Below (f a s) (g a s) s.used) : Below (x.bind f) (y.bind g) u := by
  intro b s' hb
  cases x with
  | ok a s =>
    obtain ⟨h1, h2, h2'⟩ := h a s rfl
    obtain ⟨h3, h4, h4'⟩ := hf a s b s' hb
    refine ⟨Nat.le_trans h1 h3, fun hl => ?_, fun hu hl => ?_⟩
    · rw [h2 (Nat.le_trans h3 hl)]
      exact h4 hl
    · by_cases hs : s.used ≤ stepLimit + 1
      · rw [h2 hs]
        exact h4' hs hl
      · rw [h2' hu (Nat.lt_of_not_le hs)]
        rfl
  | panic w => cases hb
  | outOfFuel => cases hb

theorem run_below {c c' : (f : Fn) → TState → Out TState f.Res}
    (hc : ∀ f s, Below (c f s) (c' f s) s.used) {α : Type} (p : Prog α) (s : TState) :
    Below (Verif.Parser.run tokenFree c p s) (Verif.Parser.run tokenLevel c' p s) s.used := by
  have same : ∀ {β : Type} (o : Out TState β) (u : Nat), (∀ a s', o = .ok a s' → s'.used = u) →
      Below o o u := fun o u h a s' he =>
    ⟨Nat.le_of_eq (h a s' he).symm, fun _ => he, fun h1 h2 => by have := h a s' he; omega⟩
  have look : ∀ (n : Nat) (s : TState), n ≤ 2 → Below (tNth n s) (tNthLimited n s) s.used := by
    intro n s hn a s' he
    have hused : s'.used = s.used + 1 := by
      match n, he with
      | 0, he => cases he; rfl
      | 1, he => cases he; rfl
      | 2, he => cases he; rfl
    refine ⟨by omega, fun hl => ?_, fun h1 h2 => ?_⟩
    · unfold tNthLimited
      rw [if_pos (by omega), if_pos (by omega)]
      exact he
    · unfold tNthLimited
      rw [if_pos (by omega), if_neg (by omega)]
  induction p generalizing s with
  | pure a => exact same _ _ fun a s' he => by cases he; rfl
  | panic w => exact same _ _ fun a s' he => by cases he
  | current k ih => exact ih _ s
  | currentText k ih =>
    exact below_bind (same _ _ fun a s' he => by cases he; rfl) fun b s => ih b s
  | nth n k ih =>
    refine below_bind (x := tNth n s) (y := tNthLimited n s) ?_ fun b s => ih b s
    by_cases hn : n ≤ 2
    · exact look n s hn
    · intro a s' he
      obtain ⟨m, rfl⟩ : ∃ m, n = m + 3 := ⟨n - 3, by omega⟩
      cases he
  | doBump kind k ih =>
    exact below_bind (same _ _ fun a s' he => by cases he; rfl) fun b s => ih s
  | start k ih =>
    exact below_bind (same _ _ fun a s' he => by cases he; rfl) fun b s => ih b s
  | complete m kind k ih =>
    refine below_bind (same (tComplete m kind s) _ fun a s' he => ?_) fun b s => ih b s
    unfold tComplete at he
    split at he <;> cases he
    rfl
  | abandon m k ih =>
    refine below_bind (same (tAbandon s) _ fun a s' he => ?_) fun b s => ih s
    unfold tAbandon at he
    split at he
    · split at he <;> cases he <;> rfl
    · cases he
  | precede c' k ih =>
    refine below_bind (same (tPrecede s) _ fun a s' he => ?_) fun b s => ih b s
    unfold tPrecede at he
    split at he <;> cases he
    rfl
  | error msg k ih =>
    exact below_bind (same _ _ fun a s' he => by cases he; rfl) fun b s => ih s
  | call f k ih => exact below_bind (hc f s) fun b s => ih b s

theorem callN_below (n : Nat) (f : Fn) (s : TState) :
    Below (callN tokenFree body n f s) (callN tokenLevel body n f s) s.used := by
  induction n generalizing f s with
  | zero => intro a s' h; cases h
  | succ n ih => exact run_below ih (body f) s

/-- A run that makes few enough lookups is one of the machine with the limit. -/
theorem Runs.limited {α : Type} {p : Prog α} {s s' : TState} {a : α} (h : Runs p s a s')
    (hu : s'.used ≤ stepLimit + 1) :
    ∃ N, ∀ n, N ≤ n → Verif.Parser.run tokenLevel (callN tokenLevel body n) p s = .ok a s' := by
  obtain ⟨N, hN⟩ := h.run
  exact ⟨N, fun n hn => (run_below (callN_below n) p s a s' (hN n hn)).2.1 hu⟩

/-- A run that makes too many makes the machine with the limit panic. -/
theorem Runs.overrun {α : Type} {p : Prog α} {s s' : TState} {a : α} (h : Runs p s a s')
    (hs : s.used ≤ stepLimit + 1) (hu : stepLimit + 1 < s'.used) :
    ∃ N, ∀ n, N ≤ n → Verif.Parser.run tokenLevel (callN tokenLevel body n) p s = .panic .stuck := by
  obtain ⟨N, hN⟩ := h.run
  exact ⟨N, fun n hn => (run_below (callN_below n) p s a s' (hN n hn)).2.2 hs hu⟩

/-- Runs of the parts of a program make up a run of it. -/
theorem exec_bind {α β : Type} (p : Prog α) (k : α → Prog β) (s : TState) :
    exec (p >>= k) s =
      match exec p s with
      | .done a s' => exec (k a) s'
      | .call f s1 k1 => .call f s1 fun r => k1 r >>= k
      | .panic w => .panic w
      | .outOfFuel => .outOfFuel := by
  have key : ∀ {γ : Type} (o : Out TState γ) (f : γ → TState → Stage β) (g : γ → TState → Stage α),
      (∀ b s, f b s = match g b s with
        | .done a s' => exec (k a) s'
        | .call f s1 k1 => .call f s1 fun r => k1 r >>= k
        | .panic w => .panic w
        | .outOfFuel => .outOfFuel) →
      Stage.ofOut o f = match Stage.ofOut o g with
        | .done a s' => exec (k a) s'
        | .call f s1 k1 => .call f s1 fun r => k1 r >>= k
        | .panic w => .panic w
        | .outOfFuel => .outOfFuel := by
    intro γ o f g h
    cases o with
    | ok b s => exact h b s
    | panic w => rfl
    | outOfFuel => rfl
  induction p generalizing s with
  | pure a => rfl
  | panic w => rfl
  | current k ih => exact ih _ s
  | currentText k ih => exact key _ _ _ fun b s => ih b s
  | nth n k ih => exact key _ _ _ fun b s => ih b s
  | doBump kind k ih => exact key _ _ _ fun _ s => ih s
  | start k ih => exact key _ _ _ fun b s => ih b s
  | complete m kind k ih => exact key _ _ _ fun b s => ih b s
  | abandon m k ih => exact key _ _ _ fun _ s => ih s
  | precede c' k ih => exact key _ _ _ fun b s => ih b s
  | error msg k ih => exact key _ _ _ fun _ s => ih s
  | call f k ih => rfl

theorem Runs.bind {α β : Type} {p : Prog α} {k : α → Prog β} {s s1 s' : TState} {a : α} {b : β}
    (h1 : Runs p s a s1) (h2 : Runs (k a) s1 b s') : Runs (p >>= k) s b s' := by
  induction h1 with
  | @done _ p s s1 a h =>
    have he : exec (p >>= k) s = exec (k a) s1 := by rw [exec_bind, h]
    cases h2 with
    | done h' => exact .done (he.trans h')
    | call h' r1 r2 => exact .call (he.trans h') r1 r2
  | @call _ p s s1 s2 _ a f r k1 h r1 _ _ ih =>
    refine .call (k := fun r => k1 r >>= k) ?_ r1 (ih h2)
    rw [exec_bind, h]

end Verif.Parser
