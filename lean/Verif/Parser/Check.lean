import Verif.Parser.Budget
import Verif.Lexer.Lookahead

set_option autoImplicit false

/-!
A weakest-precondition check for grammar functions, and its soundness.

`Ok p c Q` says of the text of a program: run in a situation `c`, it uses markers like brackets,
reads only tokens that are there, calls functions only in situations they are made for, pays for
every operation, and ends in a situation satisfying `Q`.  The check never looks at a particular
input.  `Verif.Parser.GrammarOk` establishes it for the whole grammar; `callB_good` draws the
consequences for all runs on all texts.
-/

namespace Verif.Parser

/-- What a check knows at a point of a program. -/
structure Ctx where
  /-- kind of the current token -/
  cur : Kind
  /-- kind of the next token, as far as it was looked up -/
  next : Option Kind
  /-- markers started by this function, innermost first; `true` for those from `precede` -/
  opens : List (Marker × Bool)
  /-- the node completed just before -/
  last : Option Completed
  /-- steps that are paid for -/
  credit : Nat

/-- Credit for progress: a lookup of a token, which counts towards the step limit, or a token. -/
def gain : Nat := 200

/-- What a call of each function costs, without the progress it makes itself. -/
def cost : Fn → Nat
  | .skipUntil _ => 2
  | .exprBpLoop _ _ => 3
  | .postfixLoop _ => 2
  | _ => 30

/-- When a function may be called. -/
def Pre (f : Fn) (c : Ctx) : Prop :=
  match f with
  | .rootLoop => True
  | .skipUntil ts => c.cur.isTrivia = false ∧ ts.contains .EOF = true
  | .pathLoop q => c.cur.isTrivia = false ∧ c.last = some q
  | .postfixLoop q => c.cur.isTrivia = false ∧ c.last = some q
  | .exprBpLoop bp q => c.cur.isTrivia = false ∧ 1 ≤ bp ∧ c.last = some q
  | .exprBp bp => c.cur.isTrivia = false ∧ 1 ≤ bp
  | _ => c.cur.isTrivia = false

/-- What holds after a call, besides that all markers started in it are closed. -/
def Post (f : Fn) (c : Ctx) (r : f.Res) (c' : Ctx) : Prop :=
  c'.cur.isTrivia = false ∧
  match f, r with
  | .rootLoop, _ => c'.cur = .EOF
  | .skipUntil ts, _ => ts.contains c'.cur = true ∧ (ts.contains c.cur = true → c'.cur = c.cur) ∧
      (ts.contains c.cur = false → ∀ y, c.next = some y → y.isTrivia = false →
        ts.contains y = true → c'.cur = y)
  | .postfixLoop _, r => c'.last = some r
  | _, _ => True

/-- The check. -/
def Ok {α : Type} : Prog α → Ctx → (α → Ctx → Prop) → Prop
  | .pure a, c, Q => Q a c
  | .panic w, _, _ => w = .assertion "module"
  | .current k, c, Q => Ok (k c.cur) c Q
  | .currentText k, c, Q => 1 ≤ c.credit ∧ ∀ t, Ok (k t) { c with credit := c.credit - 1 } Q
  | .nth n k, c, Q => 1 ≤ c.credit ∧ n ≤ 2 ∧ ∀ x, (n = 0 → x = c.cur) →
      (n = 1 → (c.cur = .EOF → x = .EOF) ∧ ∀ y, c.next = some y → x = y) →
      Ok (k x) { c with credit := c.credit - 1 + gain, next := if n = 1 then some x else c.next } Q
  | .doBump kd k, c, Q => 1 ≤ c.credit ∧ c.cur ≠ .EOF ∧
      (kd = c.cur ∨ (c.cur = .INTEGER_NUMBER ∧ kd = .DIEM_ADDRESS)) ∧
      ∀ x : Kind, x.isTrivia = false →
        (∀ y, c.next = some y → y.isTrivia = false → x = y) →
        Ok k ⟨x, none, c.opens, none, c.credit - 1 + gain⟩ Q
  | .start k, c, Q => 1 ≤ c.credit ∧ c.cur.isTrivia = false ∧
      ∀ m, Ok (k m) { c with opens := (m, false) :: c.opens, last := none, credit := c.credit - 1 } Q
  | .complete m kind k, c, Q => 1 ≤ c.credit ∧ c.cur.isTrivia = false ∧ isNodeKind kind = true ∧
      ∃ b rest, c.opens = (m, b) :: rest ∧
        ∀ r, Ok (k r) { c with opens := rest, last := some r, credit := c.credit - 1 } Q
  | .abandon m k, c, Q => 1 ≤ c.credit ∧ c.cur.isTrivia = false ∧
      ∃ rest, c.opens = (m, false) :: rest ∧
        Ok k { c with opens := rest, last := none, credit := c.credit - 1 } Q
  | .precede r k, c, Q => 1 ≤ c.credit ∧ c.cur.isTrivia = false ∧ c.last = some r ∧
      ∀ m, Ok (k m) { c with opens := (m, true) :: c.opens, last := none, credit := c.credit - 1 } Q
  | .error _ k, c, Q => 1 ≤ c.credit ∧ c.cur.isTrivia = false ∧
      Ok k { c with last := none, credit := c.credit - 1 } Q
  | .call f k, c, Q => cost f ≤ c.credit ∧ Pre f c ∧ ∀ r c', Post f c r c' → c'.opens = c.opens →
      c.credit ≤ c'.credit + cost f → Ok (k r) c' Q

theorem Ok.mono {α : Type} {p : Prog α} {c : Ctx} {Q Q' : α → Ctx → Prop} (h : Ok p c Q)
    (hq : ∀ a c, Q a c → Q' a c) : Ok p c Q' := by
  induction p generalizing c with
  | pure a => exact hq _ _ h
  | panic w => exact h
  | current k ih => exact ih _ h
  | currentText k ih => exact ⟨h.1, fun t => ih t (h.2 t)⟩
  | nth n k ih => exact ⟨h.1, h.2.1, fun x h1 h2 => ih x (h.2.2 x h1 h2)⟩
  | doBump kind k ih => exact ⟨h.1, h.2.1, h.2.2.1, fun x h1 h2 => ih (h.2.2.2 x h1 h2)⟩
  | start k ih => exact ⟨h.1, h.2.1, fun m => ih m (h.2.2 m)⟩
  | complete m kind k ih =>
    obtain ⟨h1, h2, h3, b, rest, h4, h5⟩ := h
    exact ⟨h1, h2, h3, b, rest, h4, fun r => ih r (h5 r)⟩
  | abandon m k ih =>
    obtain ⟨h1, h2, rest, h3, h4⟩ := h
    exact ⟨h1, h2, rest, h3, ih h4⟩
  | precede r k ih => exact ⟨h.1, h.2.1, h.2.2.1, fun m => ih m (h.2.2.2 m)⟩
  | error msg k ih => exact ⟨h.1, h.2.1, ih h.2.2⟩
  | call f k ih => exact ⟨h.1, h.2.1, fun r c' h1 h2 h3 => ih r (h.2.2 r c' h1 h2 h3)⟩

theorem ok_bind {α β : Type} {p : Prog α} {f : α → Prog β} {c : Ctx} {Q : β → Ctx → Prop}
    (h : Ok p c (fun a c' => Ok (f a) c' Q)) : Ok (p >>= f) c Q := by
  show Ok (p.bind f) c Q
  induction p generalizing c with
  | pure a => exact h
  | panic w => exact h
  | current k ih => exact ih _ h
  | currentText k ih => exact ⟨h.1, fun t => ih t (h.2 t)⟩
  | nth n k ih => exact ⟨h.1, h.2.1, fun x h1 h2 => ih x (h.2.2 x h1 h2)⟩
  | doBump kind k ih => exact ⟨h.1, h.2.1, h.2.2.1, fun x h1 h2 => ih (h.2.2.2 x h1 h2)⟩
  | start k ih => exact ⟨h.1, h.2.1, fun m => ih m (h.2.2 m)⟩
  | complete m kind k ih =>
    obtain ⟨h1, h2, h3, b, rest, h4, h5⟩ := h
    exact ⟨h1, h2, h3, b, rest, h4, fun r => ih r (h5 r)⟩
  | abandon m k ih =>
    obtain ⟨h1, h2, rest, h3, h4⟩ := h
    exact ⟨h1, h2, rest, h3, ih h4⟩
  | precede r k ih => exact ⟨h.1, h.2.1, h.2.2.1, fun m => ih m (h.2.2.2 m)⟩
  | error msg k ih => exact ⟨h.1, h.2.1, ih h.2.2⟩
  | call f k ih => exact ⟨h.1, h.2.1, fun r c' h1 h2 h3 => ih r (h.2.2 r c' h1 h2 h3)⟩

/-- A function keeps its contract. -/
def BodyOk (body : (f : Fn) → Prog f.Res) (f : Fn) : Prop :=
  ∀ c : Ctx, Pre f c → c.opens = [] → cost f ≤ c.credit + 1 →
    Ok (body f) c fun r c' => Post f c r c' ∧ c'.opens = [] ∧ c.credit + 1 ≤ c'.credit + cost f

/-! Soundness. -/

/-- The kinds of the token events. -/
def tokKinds (evs : List Event) : List Kind :=
  evs.filterMap fun
    | .token k _ => some k
    | _ => none

/-- The token events and the tokens read: each event is for one token, with its kind or the kind
the parser gives it; tokens without event are trivia; only the very first event may be for a
trivia token. -/
inductive Bumped : List Kind → List (Kind × Text) → Prop
  | nil : Bumped [] []
  | snoc {ks : List Kind} {done triv : List (Kind × Text)} {kd k : Kind} {u : Text} :
    Bumped ks done → (kd = k ∨ (k = .INTEGER_NUMBER ∧ kd = .DIEM_ADDRESS)) →
    (done = [] ∨ k.isTrivia = false) → (∀ x ∈ triv, x.1.isTrivia = true) →
    Bumped (ks ++ [kd]) (done ++ (k, u) :: triv)

/-- The events of a state. -/
def HState.events (h : HState) : List Event := stackEv h.outer ++ h.items.ev none

def HState.lower (h : HState) : PState := ⟨h.lexer, h.events, h.steps⟩

/-- The first or the second event is for a token. -/
def Lead (evs : List Event) : Prop := ∃ i k, i ≤ 1 ∧ evs[i]? = some (.token k 1)

/-- Invariant of all states of a run on `text`.  A text that starts with trivia has its first
token at the very beginning of the events, after the start of the root. -/
structure HInv (text : Text) (h : HState) : Prop where
  rep : Rep h h.lower
  text : h.lexer.text = text
  lex : ∃ done rest, Lexer.Valid h.lexer done rest ∧ Bumped (tokKinds h.events) done ∧
    (h.lexer.token.kind.isTrivia = true → done = []) ∧
    (∀ x, done.head? = some x → x.1.isTrivia = true → Lead h.events)
  fresh : h.lexer.token.kind.isTrivia = true → h.events.length ≤ 1

/-- What is left to do: lookups until the step limit, and text. -/
def HState.measure (h : HState) : Nat :=
  (stepLimit + 1 - h.steps) + (byteLen h.lexer.text - h.lexer.curStart)

def Frames : List Saved → List (Marker × Bool) → Prop
  | [], [] => True
  | s :: ss, o :: os => s.marker = o.1 ∧ (o.2 = false → s.pre = .nil) ∧ Frames ss os
  | _, _ => False

/-- The state is as the check assumes; `base` are the nodes opened by the callers. -/
structure Sat (base : List Saved) (h : HState) (c : Ctx) : Prop where
  cur : c.cur = h.lexer.token.kind
  next : ∀ y, c.next = some y → ∃ t, h.lexer.lookahead = some t ∧ t.kind = y
  opens : ∃ frames, h.outer = frames ++ base ∧ Frames frames c.opens
  last : ∀ r, c.last = some r → ∃ i k p ks, h.items = .node i k p ks ∧ r.startPos + (ks.len + 2) = h.n

/-- The panics that a checked program may end with. -/
def Allowed (w : Panic) : Prop := w = .lexer ∨ w = .stuck ∨ w = .assertion "module"

/-- An outcome within the budget and as checked. -/
def Good {α : Type} (text : Text) (base : List Saved) (Q : α → Ctx → Prop) :
    Out (HState × Nat) α → Prop
  | .ok a (h, b) => ∃ c, Q a c ∧ Sat base h c ∧ HInv text h ∧ gain * h.measure + c.credit ≤ b
  | .panic w => Allowed w
  | .outOfFuel => False

theorem spend_good {α β : Type} {text : Text} {base : List Saved} {Q : β → Ctx → Prop} {b : Nat}
    (hb : 1 ≤ b) {o : Out HState α} {k : α → HState × Nat → Out (HState × Nat) β}
    (hp : ∀ w, o = .panic w → Allowed w) (hf : o ≠ .outOfFuel)
    (hok : ∀ a h, o = .ok a h → Good text base Q (k a (h, b - 1))) :
    Good text base Q ((spend b o).bind k) := by
  cases b with
  | zero => omega
  | succ b =>
    cases o with
    | ok a s => exact hok a s rfl
    | panic w => exact hp w rfl
    | outOfFuel => exact absurd rfl hf

theorem lower_eq {h : HState} {l : PState} (r : Rep h l) : l = h.lower := by
  obtain ⟨lx, evs, st⟩ := l
  have h1 := r.lexer
  have h2 := r.steps
  have h3 := r.events
  simp only at h1 h2 h3
  subst h1 h2 h3
  rfl

theorem agree_ok {α : Type} {o : Out HState α} {o' : Out PState α} (h : Agree o o') {a : α}
    {h' : HState} (ho : o = .ok a h') : Rep h' h'.lower := by
  subst ho
  obtain ⟨l, _, r⟩ := h
  have := lower_eq r
  subst this
  exact r

theorem tokKinds_append (a b : List Event) : tokKinds (a ++ b) = tokKinds a ++ tokKinds b := by
  unfold tokKinds
  rw [List.filterMap_append]

theorem tokKinds_ev (fp fp' : Option Nat) (f : Forest) : tokKinds (f.ev fp) = tokKinds (f.ev fp') := by
  cases f with
  | node i k pre kids =>
    simp only [Forest.ev, tokKinds_append]
    rfl
  | _ => rfl

theorem Lead.append {evs : List Event} (h : Lead evs) (es : List Event) : Lead (evs ++ es) := by
  obtain ⟨i, k, hi, he⟩ := h
  exact ⟨i, k, hi, by rw [List.getElem?_append_left (List.getElem?_eq_some_iff.1 he).1, he]⟩

theorem Lead.set {evs : List Event} (h : Lead evs) {j : Nat} {k : Kind} {fp : Option Nat}
    (hj : evs[j]? = some (.start k fp)) (e : Event) : Lead (evs.set j e) := by
  obtain ⟨i, k', hi, he⟩ := h
  refine ⟨i, k', hi, ?_⟩
  have hne : j ≠ i := by
    rintro rfl
    rw [he] at hj
    cases hj
  rw [List.getElem?_set_ne hne, he]

theorem lead_complete {l l' : PState} {m : Marker} {kind : Kind} {c : Completed}
    (h : lowLevel.complete m kind l = .ok c l') (hl : Lead l.events) : Lead l'.events := by
  simp only [lowLevel, evComplete] at h
  split at h
  · rename_i c' evs heq
    split at heq
    · rename_i k fp hm
      cases heq
      cases h
      exact (hl.set hm _).append _
    · cases heq
  · cases h

theorem lead_abandon {l l' : PState} {m : Marker} {u : Unit}
    (h : lowLevel.abandon m l = .ok u l') (hl : Lead l.events) : Lead l'.events := by
  simp only [lowLevel, evAbandon] at h
  split at h
  · rename_i evs heq
    cases h
    split at heq
    · cases heq
    · split at heq
      · rename_i hpos
        split at heq
        · rename_i hm
          cases heq
          obtain ⟨i, k, hi, he⟩ := hl
          refine ⟨i, k, hi, ?_⟩
          have hlt := (List.getElem?_eq_some_iff.1 he).1
          have hne : i ≠ m.pos := by
            rintro rfl
            rw [he] at hm
            cases hm
          rw [List.getElem?_dropLast, if_pos (by omega), he]
        · cases heq
      · cases heq
        exact hl
  · cases h

theorem lead_precede {l l' : PState} {c : Completed} {m : Marker}
    (h : lowLevel.precede c l = .ok m l') (hl : Lead l.events) : Lead l'.events := by
  simp only [lowLevel, evPrecede] at h
  split at h
  · rename_i c' evs heq
    split at heq
    · rename_i k fp hm
      split at heq
      · cases heq
        cases h
        exact (hl.append _).set hm _
      · cases heq
    · cases heq
  · cases h

theorem lead_agree {α : Type} {o : Out HState α} {o' : Out PState α} (h : Agree o o') {a : α}
    {h' : HState} (ho : o = .ok a h') (hl : ∀ l, o' = .ok a l → Lead l.events) : Lead h'.events := by
  subst ho
  obtain ⟨l, hl', r⟩ := h
  have := hl l hl'
  rw [lower_eq r] at this
  exact this

/-- Operations that leave the lexer and the step count alone and keep the token events. -/
theorem HInv.keep {text : Text} {h h' : HState} (hi : HInv text h) (rep : Rep h' h'.lower)
    (hl : h'.lexer = h.lexer) (he : tokKinds h'.events = tokKinds h.events)
    (hf : h.lexer.token.kind.isTrivia = true → h'.events.length ≤ 1)
    (hlead : Lead h.events → Lead h'.events) :
    HInv text h' := by
  refine ⟨rep, by rw [hl]; exact hi.text, ?_, by rw [hl]; exact hf⟩
  rw [hl, he]
  obtain ⟨done, rest, h1, h2, h3, h4⟩ := hi.lex
  exact ⟨done, rest, h1, h2, h3, fun x hx ht => hlead (h4 x hx ht)⟩

theorem measure_keep {h h' : HState} (hl : h'.lexer = h.lexer) (hs : h'.steps = h.steps) :
    h'.measure = h.measure := by
  unfold HState.measure
  rw [hl, hs]

theorem tokKinds_start (k : Kind) (fp : Option Nat) (evs : List Event) :
    tokKinds (.start k fp :: evs) = tokKinds evs := rfl

theorem tokKinds_single (e : Event) (h : ∀ k n, e ≠ .token k n) : tokKinds [e] = [] := by
  cases e with
  | token k n => exact absurd rfl (h k n)
  | _ => rfl

theorem run_good {text : Text} {α : Type} {cb : (f : Fn) → HState × Nat → Out (HState × Nat) f.Res}
    {bmax : Nat}
    (hc : ∀ (f : Fn) (h : HState) (b : Nat) (c : Ctx) (base : List Saved), Pre f c → Sat base h c →
      HInv text h → gain * h.measure + c.credit ≤ b → cost f ≤ c.credit → b ≤ bmax →
      Good text base (fun r c' => Post f c r c' ∧ c'.opens = c.opens ∧ c.credit ≤ c'.credit + cost f)
        (cb f (h, b)))
    (hmono : ∀ (f : Fn) (h : HState) (b : Nat) (r : f.Res) (h' : HState) (b' : Nat),
      cb f (h, b) = .ok r (h', b') → b' ≤ b)
    (p : Prog α) {base : List Saved} {h : HState} {c : Ctx} {b : Nat} {Q : α → Ctx → Prop}
    (ok : Ok p c Q) (sat : Sat base h c) (inv : HInv text h)
    (hb : gain * h.measure + c.credit ≤ b) (hbm : b ≤ bmax) :
    Good text base Q (run (budgeted highLevel) cb p (h, b)) := by
  induction p generalizing h c b with
  | pure a => exact ⟨c, ok, sat, inv, hb⟩
  | panic w => exact .inr (.inr ok)
  | current k ih =>
    have hcur : highLevel.current h = c.cur := sat.cur.symm
    show Good text base Q (run (budgeted highLevel) cb (k (highLevel.current h)) (h, b))
    rw [hcur]
    exact ih _ ok sat inv hb hbm
  | currentText k ih =>
    obtain ⟨hcr, ok⟩ := ok
    apply spend_good (by omega)
    · intro w hw
      simp only [highLevel] at hw
      split at hw <;> cases hw
      exact .inl rfl
    · simp only [highLevel]; split <;> (intro hh; cases hh)
    · intro t h' ht
      simp only [highLevel] at ht
      split at ht <;> cases ht
      refine ih _ (ok _) ⟨sat.cur, sat.next, sat.opens, sat.last⟩ inv ?_ (by omega)
      simp only
      omega
  | nth n k ih =>
    obtain ⟨hcr, hn, ok⟩ := ok
    have hn3 : n ≤ 3 := by omega
    apply spend_good (by omega)
    · intro w hw
      simp only [highLevel, hNth] at hw
      rw [if_pos hn3] at hw
      split at hw
      · try rw [if_pos hn] at hw
        split at hw <;> cases hw
        exact .inl rfl
      · cases hw; exact .inr (.inl rfl)
    · simp only [highLevel, hNth]
      rw [if_pos hn3]
      split
      · (try rw [if_pos hn]); split <;> (intro hh; cases hh)
      · (intro hh; cases hh)
    · intro x h' hx
      have hag := agree_ok (agree_nth n inv.rep) hx
      simp only [highLevel, hNth] at hx
      rw [if_pos hn3] at hx
      split at hx
      · rename_i hst
        try rw [if_pos hn] at hx
        split at hx
        · rename_i t ht
          cases hx
          have hx0 : n = 0 → t.kind = c.cur := by
            rintro rfl
            rw [sat.cur]
            cases ht
            rfl
          have hx1 : n = 1 → h.lexer.lookahead = some t := by
            rintro rfl
            exact ht
          refine ih _ (ok t.kind hx0 ?_) ⟨sat.cur, ?_, sat.opens, sat.last⟩ ?_ ?_ (by omega)
          · intro h1
            refine ⟨fun he => ?_, fun y hy => ?_⟩
            · obtain ⟨done, rest, hv, _⟩ := inv.lex
              exact Lexer.lookahead_eof hv (sat.cur ▸ he) (hx1 h1)
            · obtain ⟨t', ht', rfl⟩ := sat.next y hy
              rw [hx1 h1] at ht'
              cases ht'
              rfl
          · intro y hy
            simp only at hy
            split at hy
            · rename_i h1
              cases hy
              exact ⟨t, hx1 h1, rfl⟩
            · exact sat.next y hy
          · exact HInv.keep inv hag rfl rfl inv.fresh id
          · have : HState.measure { h with steps := h.steps + 1 } + 1 = h.measure := by
              simp only [HState.measure]; omega
            simp only
            rw [← this, Nat.mul_add] at hb
            simp only [gain] at hb ⊢
            omega
        · cases hx
      · cases hx
  | doBump kd k ih =>
    obtain ⟨hcr, hne, hkd, ok⟩ := ok
    apply spend_good (by omega)
    · intro w hw
      simp only [highLevel, hDoBump] at hw
      split at hw <;> cases hw
      exact .inl rfl
    · simp only [highLevel, hDoBump]; split <;> (intro hh; cases hh)
    · intro x h' hx
      have hag := agree_ok (agree_doBump kd inv.rep) hx
      simp only [highLevel, hDoBump] at hx
      split at hx
      · rename_i lx hbump
        cases hx
        obtain ⟨done, rest, hv, hbd, hdone, hlead⟩ := inv.lex
        rw [sat.cur] at hne hkd
        obtain ⟨u, triv, rest', hrest, hlen, hu, htriv, hv', hnt, htext⟩ := Lexer.bump_valid hv hne hbump
        refine ih (ok lx.token.kind hnt ?_) ⟨rfl, (fun y hy => by cases hy), sat.opens,
          (fun r hr => by cases hr)⟩ ?_ ?_ (by omega)
        · intro y hy hyt
          obtain ⟨t, ht, rfl⟩ := sat.next y hy
          exact Lexer.lookahead_bump ht hyt hbump
        · refine ⟨hag, htext.trans inv.text, ⟨_, rest', hv', ?_, ?_, ?_⟩, ?_⟩
          · have : tokKinds (HState.events ⟨lx, h.steps, h.n + 1, .tok h.items kd, h.outer⟩)
                = tokKinds h.events ++ [kd] := by
              simp only [HState.events, Forest.ev, tokKinds_append, List.append_assoc]
              rfl
            rw [this]
            refine .snoc hbd hkd ?_ htriv
            cases ht : h.lexer.token.kind.isTrivia with
            | true => exact .inl (hdone ht)
            | false => exact .inr rfl
          · intro ht; simp only at ht; rw [hnt] at ht; cases ht
          · intro x hx ht
            have hev : HState.events ⟨lx, h.steps, h.n + 1, .tok h.items kd, h.outer⟩
                = h.events ++ [.token kd 1] := by
              simp only [HState.events, Forest.ev, List.append_assoc]
            rw [hev]
            cases done with
            | nil =>
              cases hx
              have hlen := inv.fresh ht
              refine ⟨h.events.length, kd, hlen, ?_⟩
              rw [List.getElem?_append_right (Nat.le_refl _)]
              simp
            | cons y ys => exact (hlead x hx ht).append _
          · intro ht; simp only at ht; rw [hnt] at ht; cases ht
        · have hm : HState.measure ⟨lx, h.steps, h.n + 1, .tok h.items kd, h.outer⟩ + 1 ≤ h.measure := by
            simp only [HState.measure]
            have h1 := hv.start
            have h2 := hv'.start
            have hulen : 0 < byteLen u := by
              cases u with
              | nil => exact absurd rfl hu
              | cons d ds => rw [byteLen_cons]; have := utf8Size_pos d; omega
            rw [hrest, byteLen_append, byteLen_append] at h1
            rw [htext] at h2 ⊢
            omega
          have := Nat.mul_le_mul_left gain hm
          rw [Nat.mul_add] at this
          simp only [gain] at this hb ⊢
          omega
      · cases hx
  | start k ih =>
    obtain ⟨hcr, hnt, ok⟩ := ok
    refine spend_good (o := highLevel.start h) (by omega) ?_ ?_ ?_
    · intro w hw; cases hw
    · (intro hh; cases hh)
    · intro m h' hm
      have hlead : Lead h.events → Lead h'.events := fun hl =>
        lead_agree (agree_start  inv.rep) hm fun l hl' => by cases hl'; exact hl.append _
      have hag := agree_ok (agree_start inv.rep) hm
      cases hm
      refine ih _ (ok _) ⟨sat.cur, sat.next, ?_, (fun r hr => by cases hr)⟩ ?_ ?_ (by omega)
      · obtain ⟨frames, hfr, hm⟩ := sat.opens
        refine ⟨⟨⟨h.n⟩, .nil, h.items⟩ :: frames, ?_, rfl, fun _ => rfl, hm⟩
        simp [hfr]
      · refine HInv.keep inv hag rfl ?_ ?_ hlead
        · simp only [HState.events, stackEv, Forest.ev, tokKinds_append]
          simp [tokKinds]
          rfl
        · intro ht; rw [← sat.cur, hnt] at ht; cases ht
      · show gain * h.measure + (c.credit - 1) ≤ b - 1
        omega
  | complete m kind k ih =>
    obtain ⟨hcr, hnt, hk, bb, rest, hop, ok⟩ := ok
    obtain ⟨frames, hfr, hm⟩ := sat.opens
    rw [hop] at hm
    cases frames with
    | nil => cases hm
    | cons s ss =>
      obtain ⟨hms, hpre, hrest⟩ := hm
      have houter : h.outer = s :: (ss ++ base) := hfr
      have heq : highLevel.complete m kind h = .ok ⟨m.pos, h.n, kind⟩
          { h with n := h.n + 1, items := .node s.items kind s.pre h.items, outer := ss ++ base } := by
        simp only [highLevel, hComplete, houter]
        rw [if_pos ⟨hms, hk⟩]
      apply spend_good (by omega)
      · intro w hw; rw [heq] at hw; cases hw
      · show highLevel.complete m kind h ≠ _
        rw [heq]; (intro hh; cases hh)
      · intro r h' hr
        have hlead : Lead h.events → Lead h'.events := fun hl =>
          lead_agree (agree_complete m kind inv.rep) hr fun l hl' => by exact lead_complete hl' hl
        have hag := agree_ok (agree_complete m kind inv.rep) hr
        rw [heq] at hr
        cases hr
        refine ih _ (ok _) ⟨sat.cur, sat.next, ⟨ss, rfl, hrest⟩, ?_⟩ ?_ ?_ (by omega)
        · intro r hr
          cases hr
          refine ⟨_, _, _, _, rfl, ?_⟩
          simp only
          have hmk := inv.rep.markers
          rw [houter] at hmk
          have hlen := inv.rep.len
          rw [houter] at hlen
          have hpos := hmk.1
          have hms' : s.marker = m := hms
          rw [← hms', hpos, Saved.pos]
          simp only [stackEv, List.length_append, Forest.ev_length, List.length_cons, List.length_nil] at hlen
          omega
        · refine HInv.keep inv hag rfl ?_ ?_ hlead
          · simp only [HState.events, houter, stackEv, Forest.ev, tokKinds_append, tokKinds_start]
            simp [tokKinds, Event.tombstone]
          · intro ht; rw [← sat.cur, hnt] at ht; cases ht
        · show gain * h.measure + (c.credit - 1) ≤ b - 1
          omega
  | abandon m k ih =>
    obtain ⟨hcr, hnt, rest, hop, ok⟩ := ok
    obtain ⟨frames, hfr, hm⟩ := sat.opens
    rw [hop] at hm
    cases frames with
    | nil => cases hm
    | cons s ss =>
      obtain ⟨hms, hpre, hrest⟩ := hm
      have hpre := hpre rfl
      have houter : h.outer = s :: (ss ++ base) := hfr
      have heq : ∃ n items, highLevel.abandon m h = .ok () { h with n := n, items := items, outer := ss ++ base }
          ∧ tokKinds (items.ev none) = tokKinds (s.items.ev none) ++ tokKinds (h.items.ev none) := by
        simp only [highLevel, hAbandon, houter]
        rw [if_pos ⟨hms, hpre⟩]
        split
        · rename_i hnil
          exact ⟨_, _, rfl, by rw [hnil]; simp [Forest.ev, tokKinds]⟩
        · refine ⟨_, _, rfl, ?_⟩
          rw [Forest.ev_append _ _ _ (.inr rfl)]
          simp only [Forest.ev, tokKinds_append]
          simp [tokKinds, Event.tombstone]
      obtain ⟨n, items, heq, hit⟩ := heq
      apply spend_good (by omega)
      · intro w hw; rw [heq] at hw; cases hw
      · show highLevel.abandon m h ≠ _
        rw [heq]; (intro hh; cases hh)
      · intro r h' hr
        have hlead : Lead h.events → Lead h'.events := fun hl =>
          lead_agree (agree_abandon m inv.rep) hr fun l hl' => by exact lead_abandon hl' hl
        have hag := agree_ok (agree_abandon m inv.rep) hr
        rw [heq] at hr
        cases hr
        refine ih ok ⟨sat.cur, sat.next, ⟨ss, rfl, hrest⟩, (fun r hr => by cases hr)⟩ ?_ ?_ (by omega)
        · refine HInv.keep inv hag rfl ?_ ?_ hlead
          · simp only [HState.events, houter, stackEv, tokKinds_append, hit, hpre, Forest.ev]
            simp [tokKinds, Event.tombstone]
          · intro ht; rw [← sat.cur, hnt] at ht; cases ht
        · show gain * h.measure + (c.credit - 1) ≤ b - 1
          omega
  | precede r k ih =>
    obtain ⟨hcr, hnt, hlast, ok⟩ := ok
    obtain ⟨i, kd, pre, ks, hit, hpos⟩ := sat.last r hlast
    have heq : highLevel.precede r h = .ok ⟨h.n⟩ { h with n := h.n + 1, items := .nil, outer := ⟨⟨h.n⟩, .node .nil kd pre ks, i⟩ :: h.outer } := by
      simp only [highLevel, hPrecede, hit]
      rw [if_pos hpos]
    apply spend_good (by omega)
    · intro w hw; rw [heq] at hw; cases hw
    · show highLevel.precede r h ≠ _
      rw [heq]; (intro hh; cases hh)
    · intro m h' hm
      have hlead : Lead h.events → Lead h'.events := fun hl =>
        lead_agree (agree_precede r inv.rep) hm fun l hl' => by exact lead_precede hl' hl
      have hag := agree_ok (agree_precede r inv.rep) hm
      rw [heq] at hm
      cases hm
      refine ih _ (ok _) ⟨sat.cur, sat.next, ?_, (fun r hr => by cases hr)⟩ ?_ ?_ (by omega)
      · obtain ⟨frames, hfr, hm⟩ := sat.opens
        refine ⟨⟨⟨h.n⟩, .node .nil kd pre ks, i⟩ :: frames, ?_, rfl, (fun h => by cases h), hm⟩
        simp [hfr]
      · refine HInv.keep inv hag rfl ?_ ?_ hlead
        · simp only [HState.events, hit, stackEv, Forest.ev, tokKinds_append, tokKinds_start]
          simp [tokKinds, Event.tombstone]
        · intro ht; rw [← sat.cur, hnt] at ht; cases ht
      · show gain * h.measure + (c.credit - 1) ≤ b - 1
        omega
  | error msg k ih =>
    obtain ⟨hcr, hnt, ok⟩ := ok
    refine spend_good (o := highLevel.error msg h) (by omega) ?_ ?_ ?_
    · intro w hw; cases hw
    · (intro hh; cases hh)
    · intro m h' hm
      have hlead : Lead h.events → Lead h'.events := fun hl =>
        lead_agree (agree_error msg inv.rep) hm fun l hl' => by cases hl'; exact hl.append _
      have hag := agree_ok (agree_error msg inv.rep) hm
      cases hm
      refine ih ok ⟨sat.cur, sat.next, sat.opens, (fun r hr => by cases hr)⟩ ?_ ?_ (by omega)
      · refine HInv.keep inv hag rfl ?_ ?_ hlead
        · simp only [HState.events, Forest.ev, tokKinds_append]
          simp [tokKinds]
        · intro ht; rw [← sat.cur, hnt] at ht; cases ht
      · show gain * h.measure + (c.credit - 1) ≤ b - 1
        omega
  | call f k ih =>
    obtain ⟨hcr, hpre, ok⟩ := ok
    have hg := hc f h b c base hpre sat inv hb hcr hbm
    have hm := hmono f h b
    show Good text base Q ((cb f (h, b)).bind _)
    cases ho : cb f (h, b) with
    | ok r s =>
      obtain ⟨h', b'⟩ := s
      rw [ho] at hg
      obtain ⟨c', ⟨hpost, hop, hcred⟩, sat', inv', hb'⟩ := hg
      have := hm r h' b' ho
      exact ih r (ok r c' hpost hop hcred) sat' inv' hb' (by omega)
    | panic w => rw [ho] at hg; exact hg
    | outOfFuel => rw [ho] at hg; exact hg

/-- The budget never grows. -/
theorem run_budget {α S : Type} {M : Machine S} {cb : (f : Fn) → S × Nat → Out (S × Nat) f.Res}
    (hmono : ∀ (f : Fn) (s : S × Nat) (r : f.Res) (s' : S × Nat), cb f s = .ok r s' → s'.2 ≤ s.2)
    (p : Prog α) (s : S × Nat) (a : α) (s' : S × Nat)
    (h : run (budgeted M) cb p s = .ok a s') : s'.2 ≤ s.2 := by
  have key : ∀ {β : Type} (s : S × Nat) (o : Out S β) (k : β → S × Nat → Out (S × Nat) α),
      (∀ b t, k b t = .ok a s' → s'.2 ≤ t.2) → (spend s.2 o).bind k = .ok a s' → s'.2 ≤ s.2 := by
    intro β s o k hk hs
    cases hb : s.2 with
    | zero => rw [hb] at hs; cases hs
    | succ b =>
      rw [hb] at hs
      cases o with
      | ok x t => have := hk _ _ hs; simp only at this; omega
      | panic w => cases hs
      | outOfFuel => cases hs
  induction p generalizing s with
  | pure a => cases h; exact Nat.le_refl _
  | panic w => cases h
  | current k ih => exact ih _ _ h
  | currentText k ih => exact key s _ _ (fun b t => ih b t) h
  | nth n k ih => exact key s _ _ (fun b t => ih b t) h
  | doBump kd k ih => exact key s _ _ (fun _ t => ih t) h
  | start k ih => exact key s _ _ (fun b t => ih b t) h
  | complete m kind k ih => exact key s _ _ (fun b t => ih b t) h
  | abandon m k ih => exact key s _ _ (fun _ t => ih t) h
  | precede r k ih => exact key s _ _ (fun b t => ih b t) h
  | error msg k ih => exact key s _ _ (fun _ t => ih t) h
  | call f k ih =>
    simp only [run] at h
    cases ho : cb f s with
    | ok r t =>
      rw [ho] at h
      exact Nat.le_trans (ih _ _ h) (hmono f s r t ho)
    | panic w => rw [ho] at h; cases h
    | outOfFuel => rw [ho] at h; cases h

theorem callB_budget {S : Type} (M : Machine S) (body : (f : Fn) → Prog f.Res) (n : Nat) (f : Fn)
    (s : S × Nat) (r : f.Res) (s' : S × Nat) (h : callB M body n f s = .ok r s') : s'.2 ≤ s.2 := by
  induction n generalizing f s r s' with
  | zero => cases h
  | succ n ih =>
    obtain ⟨s, b⟩ := s
    cases b with
    | zero => cases h
    | succ b =>
      have := run_budget (fun f s r s' => ih f s r s') (body f) (s, b) r s' h
      simp only at this ⊢
      omega

theorem cost_pos (f : Fn) : 1 ≤ cost f := by
  cases f <;> simp [cost]

/-- If every function keeps its contract, then every call of a function ends within the budget,
closes the nodes it opened, and panics only in the allowed ways. -/
theorem callB_good {body : (f : Fn) → Prog f.Res} (hok : ∀ f, BodyOk body f) (text : Text) (n : Nat)
    (f : Fn) (h : HState) (b : Nat) (c : Ctx) (base : List Saved) (hpre : Pre f c)
    (sat : Sat base h c) (inv : HInv text h) (hb : gain * h.measure + c.credit ≤ b)
    (hcost : cost f ≤ c.credit) (hn : b ≤ n) :
    Good text base (fun r c' => Post f c r c' ∧ c'.opens = c.opens ∧ c.credit ≤ c'.credit + cost f)
      (callB highLevel body n f (h, b)) := by
  induction n generalizing f h b c base with
  | zero => have := cost_pos f; omega
  | succ n ih =>
    have hpos := cost_pos f
    cases b with
    | zero => omega
    | succ b =>
      show Good _ _ _ (run (budgeted highLevel) (callB highLevel body n) (body f) (h, b))
      have hpre' : Pre f { c with opens := [], credit := c.credit - 1 } := by
        cases f <;> exact hpre
      have hg := run_good (text := text) (bmax := n) (base := h.outer)
        (fun f h b c base h1 h2 h3 h4 h5 h6 => ih f h b c base h1 h2 h3 h4 h5 h6)
        (fun f h b r h' b' hr => callB_budget highLevel body n f (h, b) r (h', b') hr)
        (body f) (hok f { c with opens := [], credit := c.credit - 1 } hpre' rfl (by simp only; omega))
        ⟨sat.cur, sat.next, ⟨[], rfl, trivial⟩, sat.last⟩ inv (b := b) (by simp only; omega)
        (by omega)
      cases ho : run (budgeted highLevel) (callB highLevel body n) (body f) (h, b) with
      | ok r s =>
        obtain ⟨h', b'⟩ := s
        rw [ho] at hg
        obtain ⟨c', ⟨hpost, hop, hcr⟩, sat', inv', hb'⟩ := hg
        refine ⟨{ c' with opens := c.opens }, ⟨?_, rfl, by simp only at hcr ⊢; omega⟩, ?_, inv', hb'⟩
        · refine ⟨hpost.1, ?_⟩
          cases f <;> exact hpost.2
        · refine ⟨sat'.cur, sat'.next, ?_, sat'.last⟩
          obtain ⟨frames, hfr, hm⟩ := sat'.opens
          rw [hop] at hm
          cases frames with
          | nil =>
            obtain ⟨frames, hfr', hm'⟩ := sat.opens
            exact ⟨frames, by rw [hfr]; exact hfr', hm'⟩
          | cons s ss => cases hm
      | panic w => rw [ho] at hg; exact hg
      | outOfFuel => rw [ho] at hg; exact hg

end Verif.Parser
