import Verif.Parser.Sink

set_option autoImplicit false

/-!
A second machine for the same programs, which builds the tree directly instead of a flat list of
events, and the proof that both machines agree.

On this machine markers must be used like brackets: `complete` and `abandon` only on the marker
started last, `precede` only on the node completed last.  A program that breaks this discipline
stops with `Panic.events`.  `Verif.Parser.Check` shows that the grammar never does.
-/

namespace Verif.Parser

/-- The kinds of inner nodes: those between the kinds of tokens and `__LAST`
(crates/parser/src/syntax_kind/generated.rs), and `ERROR`. -/
def isNodeKind (k : Kind) : Bool :=
  k == .ERROR || (decide (Kind.SOURCE_FILE.toNat ≤ k.toNat) && k != .__LAST)

theorem isNodeKind_ne {k : Kind} (h : isNodeKind k = true) : k ≠ .TOMBSTONE := by
  rintro rfl; cases h

/-- A sequence of tree elements, the last one outermost.  A node has its kind, possibly the one
node that it was started in front of (`CompletedMarker::precede`), and its other children.
`tomb` is the place of an abandoned marker. -/
inductive Forest where
  | nil
  | tok (init : Forest) (kind : Kind)
  | err (init : Forest) (msg : String)
  | tomb (init : Forest)
  | node (init : Forest) (kind : Kind) (pre : Forest) (kids : Forest)
  deriving DecidableEq, Repr

namespace Forest

/-- Number of events of a forest. -/
def len : Forest → Nat
  | nil => 0
  | tok i _ => i.len + 1
  | err i _ => i.len + 1
  | tomb i => i.len + 1
  | node i _ pre kids => i.len + pre.len + kids.len + 2

/-- Distance from the start event of the last node to the end of the forest. -/
def span : Forest → Nat
  | node _ _ _ kids => kids.len + 2
  | _ => 0

/-- The events of a forest; `fp` is the forward parent of the last node. -/
def ev : Option Nat → Forest → List Event
  | _, nil => []
  | _, tok i k => ev none i ++ [.token k 1]
  | _, err i m => ev none i ++ [.error m]
  | _, tomb i => ev none i ++ [.tombstone]
  | fp, node i k pre kids =>
    ev none i ++ (ev (some pre.span) pre ++ (.start k fp :: (ev none kids ++ [.finish])))

theorem ev_length (fp : Option Nat) (f : Forest) : (ev fp f).length = f.len := by
  induction f generalizing fp with
  | nil => rfl
  | tok i k ih => simp [ev, len, ih]
  | err i m ih => simp [ev, len, ih]
  | tomb i ih => simp [ev, len, ih]
  | node i k pre kids ih1 ih2 ih3 => simp [ev, len, ih1, ih2, ih3]; omega

/-- Concatenation. -/
def append (a : Forest) : Forest → Forest
  | nil => a
  | tok i k => tok (append a i) k
  | err i m => err (append a i) m
  | tomb i => tomb (append a i)
  | node i k pre kids => node (append a i) k pre kids

theorem ev_append (a b : Forest) (fp : Option Nat) (h : b ≠ nil ∨ fp = none) :
    ev fp (a.append b) = ev none a ++ ev fp b := by
  induction b generalizing fp with
  | nil =>
    rcases h with h | rfl
    · exact absurd rfl h
    · simp [append, ev]
  | tok i k ih => simp [append, ev, ih]
  | err i m ih => simp [append, ev, ih]
  | tomb i ih => simp [append, ev, ih]
  | node i k pre kids ih1 ih2 ih3 => simp [append, ev, ih1]

/-- Nothing, or exactly one node. -/
def Single : Forest → Prop
  | nil => True
  | node nil _ _ _ => True
  | _ => False

/-- Nodes have a kind, and what they precede is one node. -/
def Wf : Forest → Prop
  | nil => True
  | tok i _ => i.Wf
  | err i _ => i.Wf
  | tomb i => i.Wf
  | node i k pre kids => i.Wf ∧ isNodeKind k = true ∧ pre.Single ∧ pre.Wf ∧ kids.Wf

theorem wf_append {a b : Forest} (ha : a.Wf) (hb : b.Wf) : (a.append b).Wf := by
  induction b with
  | nil => exact ha
  | tok i k ih => exact ih hb
  | err i m ih => exact ih hb
  | tomb i ih => exact ih hb
  | node i k pre kids ih1 ih2 ih3 => exact ⟨ih1 hb.1, hb.2⟩

end Forest

/-- An open node: its marker, the node it was started in front of, and the elements before it in
the enclosing node. -/
structure Saved where
  marker : Marker
  pre : Forest
  items : Forest

/-- The state of the high-level machine: the elements of the innermost open node, and the open
nodes from the inside out. -/
structure HState where
  lexer : Lexer.Lexer
  steps : Nat
  /-- number of events the low-level machine has at this point -/
  n : Nat
  items : Forest
  outer : List Saved

/-- The events that represent the open nodes. -/
def stackEv : List Saved → List Event
  | [] => []
  | s :: rest => stackEv rest ++ (s.items.ev none ++ (s.pre.ev (some s.pre.span) ++ [.tombstone]))

/-- The position of the innermost marker. -/
def Saved.pos (s : Saved) (rest : List Saved) : Nat :=
  (stackEv rest).length + s.items.len + s.pre.len

def MarkersOk : List Saved → Prop
  | [] => True
  | s :: rest => s.marker.pos = s.pos rest ∧ s.items.Wf ∧ s.pre.Single ∧ s.pre.Wf ∧ MarkersOk rest

def hComplete (m : Marker) (kind : Kind) (h : HState) : Out HState Completed :=
  match h.outer with
  | s :: rest =>
    if s.marker = m ∧ isNodeKind kind = true then
      .ok ⟨m.pos, h.n, kind⟩
        { h with n := h.n + 1, items := .node s.items kind s.pre h.items, outer := rest }
    else .panic .events
  | [] => .panic .events

def hAbandon (m : Marker) (h : HState) : Out HState Unit :=
  match h.outer with
  | s :: rest =>
    if s.marker = m ∧ s.pre = .nil then
      if h.items = .nil then .ok () { h with n := h.n - 1, items := s.items, outer := rest }
      else .ok () { h with items := (Forest.tomb s.items).append h.items, outer := rest }
    else .panic .events
  | [] => .panic .events

def hPrecede (c : Completed) (h : HState) : Out HState Marker :=
  match h.items with
  | .node init kind pre kids =>
    if c.startPos + (kids.len + 2) = h.n then
      .ok ⟨h.n⟩ { h with n := h.n + 1, items := .nil,
                         outer := ⟨⟨h.n⟩, .node .nil kind pre kids, init⟩ :: h.outer }
    else .panic .events
  | _ => .panic .events

def hNth (n : Nat) (h : HState) : Out HState Kind :=
  if n ≤ 3 then
    if h.steps ≤ stepLimit then
      if n ≤ 2 then
        match h.lexer.lookaheadNth n with
        | some t => .ok t.kind { h with steps := h.steps + 1 }
        | none => .panic .lexer
      else .panic .lookahead
    else .panic .stuck
  else .panic .lookahead

def hDoBump (kind : Kind) (h : HState) : Out HState Unit :=
  match h.lexer.bump with
  | some lx => .ok () { h with lexer := lx, n := h.n + 1, items := .tok h.items kind }
  | none => .panic .lexer

def highLevel : Machine HState where
  current h := h.lexer.token.kind
  currentText h :=
    match h.lexer.currentText with
    | some t => .ok t h
    | none => .panic .lexer
  nth := hNth
  doBump := hDoBump
  start h := .ok ⟨h.n⟩ { h with n := h.n + 1, items := .nil, outer := ⟨⟨h.n⟩, .nil, h.items⟩ :: h.outer }
  complete := hComplete
  abandon := hAbandon
  precede := hPrecede
  error msg h := .ok () { h with n := h.n + 1, items := .err h.items msg }

/-- The two states represent the same situation. -/
structure Rep (h : HState) (l : PState) : Prop where
  lexer : l.lexer = h.lexer
  steps : l.steps = h.steps
  events : l.events = stackEv h.outer ++ h.items.ev none
  n : h.n = l.events.length
  markers : MarkersOk h.outer
  wf : h.items.Wf

theorem Rep.len {h : HState} {l : PState} (r : Rep h l) :
    h.n = (stackEv h.outer).length + h.items.len := by
  rw [r.n, r.events, List.length_append, Forest.ev_length]

/-- How the outcomes of two machines are related whose states are related by `R`. -/
def AgreeR {S T α : Type} (R : S → T → Prop) (oh : Out S α) (ol : Out T α) : Prop :=
  match oh with
  | .ok a h => ∃ l, ol = .ok a l ∧ R h l
  | .panic .events => True
  | .panic w => ol = .panic w
  | .outOfFuel => ol = .outOfFuel

/-- How the outcomes of the high-level and the low-level machine are related. -/
abbrev Agree {α : Type} (oh : Out HState α) (ol : Out PState α) : Prop := AgreeR Rep oh ol

theorem AgreeR.bind {S T α β : Type} {R : S → T → Prop} {oh : Out S α} {ol : Out T α}
    {fh : α → S → Out S β} {fl : α → T → Out T β} (h : AgreeR R oh ol)
    (hf : ∀ a h l, R h l → AgreeR R (fh a h) (fl a l)) : AgreeR R (oh.bind fh) (ol.bind fl) := by
  cases oh with
  | ok a s =>
    obtain ⟨l, rfl, hr⟩ := h
    exact hf a s l hr
  | panic w =>
    cases w <;> simp only [AgreeR] at h <;> first | trivial | (subst h; rfl)
  | outOfFuel =>
    simp only [AgreeR] at h; subst h; rfl

/-- Two machines agree on every operation. -/
structure MachineAgree {S T : Type} (R : S → T → Prop) (M : Machine S) (N : Machine T) : Prop where
  current : ∀ h l, R h l → N.current l = M.current h
  currentText : ∀ h l, R h l → AgreeR R (M.currentText h) (N.currentText l)
  nth : ∀ n h l, R h l → AgreeR R (M.nth n h) (N.nth n l)
  doBump : ∀ k h l, R h l → AgreeR R (M.doBump k h) (N.doBump k l)
  start : ∀ h l, R h l → AgreeR R (M.start h) (N.start l)
  complete : ∀ m k h l, R h l → AgreeR R (M.complete m k h) (N.complete m k l)
  abandon : ∀ m h l, R h l → AgreeR R (M.abandon m h) (N.abandon m l)
  precede : ∀ c h l, R h l → AgreeR R (M.precede c h) (N.precede c l)
  error : ∀ msg h l, R h l → AgreeR R (M.error msg h) (N.error msg l)

/-- Machines that agree on every operation agree on every program, as long as the programs they
call do. -/
theorem MachineAgree.run {S T α : Type} {R : S → T → Prop} {M : Machine S} {N : Machine T}
    (ag : MachineAgree R M N) {ch : (f : Fn) → S → Out S f.Res} {cl : (f : Fn) → T → Out T f.Res}
    (hc : ∀ f h l, R h l → AgreeR R (ch f h) (cl f l)) (p : Prog α) (h : S) (l : T)
    (r : R h l) : AgreeR R (run M ch p h) (run N cl p l) := by
  induction p generalizing h l with
  | pure a => exact ⟨l, rfl, r⟩
  | panic w => cases w <;> first | trivial | rfl
  | current k ih =>
    simp only [Verif.Parser.run, ag.current h l r]
    exact ih _ h l r
  | currentText k ih => exact (ag.currentText h l r).bind fun a h l r => ih a h l r
  | nth n k ih => exact (ag.nth n h l r).bind fun a h l r => ih a h l r
  | doBump kind k ih => exact (ag.doBump kind h l r).bind fun _ h l r => ih h l r
  | start k ih => exact (ag.start h l r).bind fun a h l r => ih a h l r
  | complete m kind k ih => exact (ag.complete m kind h l r).bind fun a h l r => ih a h l r
  | abandon m k ih => exact (ag.abandon m h l r).bind fun _ h l r => ih h l r
  | precede c k ih => exact (ag.precede c h l r).bind fun a h l r => ih a h l r
  | error msg k ih => exact (ag.error msg h l r).bind fun _ h l r => ih h l r
  | call f k ih => exact (hc f h l r).bind fun a h l r => ih a h l r

theorem agree_start {h : HState} {l : PState} (r : Rep h l) :
    Agree (highLevel.start h) (lowLevel.start l) := by
  refine ⟨{ l with events := l.events ++ [.tombstone] }, ?_, ?_⟩
  · simp only [lowLevel, evStart]
    rw [← r.n]
  · refine ⟨r.lexer, r.steps, ?_, ?_, ?_, trivial⟩
    · simp [stackEv, Forest.ev, r.events]
    · simp [r.n]
    · refine ⟨?_, r.wf, trivial, trivial, r.markers⟩
      simp only [Saved.pos, Forest.len]
      rw [r.len]; omega

theorem agree_error {h : HState} {l : PState} (msg : String) (r : Rep h l) :
    Agree (highLevel.error msg h) (lowLevel.error msg l) := by
  refine ⟨_, rfl, r.lexer, r.steps, ?_, ?_, r.markers, r.wf⟩
  · simp [Forest.ev, r.events]
  · simp [r.n]

theorem agree_doBump {h : HState} {l : PState} (kind : Kind) (r : Rep h l) :
    Agree (highLevel.doBump kind h) (lowLevel.doBump kind l) := by
  show Agree (hDoBump kind h) (pDoBump kind l)
  unfold hDoBump pDoBump
  rw [r.lexer]
  cases h.lexer.bump with
  | none => rfl
  | some lx =>
    refine ⟨_, rfl, rfl, r.steps, ?_, ?_, r.markers, r.wf⟩
    · simp [Forest.ev, r.events]
    · simp [r.n]

theorem agree_nth {h : HState} {l : PState} (n : Nat) (r : Rep h l) :
    Agree (highLevel.nth n h) (lowLevel.nth n l) := by
  show Agree (hNth n h) (pNth n l)
  unfold hNth pNth
  rw [r.lexer, r.steps]
  split
  · split
    · split
      · cases h.lexer.lookaheadNth n with
        | none => rfl
        | some t =>
          exact ⟨_, rfl, rfl, rfl, r.events, r.n, r.markers, r.wf⟩
      · rfl
    · rfl
  · rfl

theorem agree_currentText {h : HState} {l : PState} (r : Rep h l) :
    Agree (highLevel.currentText h) (lowLevel.currentText l) := by
  simp only [highLevel, lowLevel]
  rw [r.lexer]
  cases h.lexer.currentText with
  | none => rfl
  | some t => exact ⟨_, rfl, r⟩

theorem set_middle (a b : List Event) (x y : Event) :
    (a ++ x :: b).set a.length y = a ++ y :: b := by
  induction a with
  | nil => rfl
  | cons c cs ih => simp [ih]

theorem get_middle (a b : List Event) (x : Event) : (a ++ x :: b)[a.length]? = some x := by
  simp

theorem agree_complete {h : HState} {l : PState} (m : Marker) (kind : Kind) (r : Rep h l) :
    Agree (highLevel.complete m kind h) (lowLevel.complete m kind l) := by
  show Agree (hComplete m kind h) _
  unfold hComplete
  cases ho : h.outer with
  | nil => trivial
  | cons s rest =>
    simp only
    split
    · rename_i hm
      obtain ⟨rfl, hk⟩ := hm
      have hmk := r.markers
      rw [ho] at hmk
      obtain ⟨hpos, hw1, hw2, hw3, hrest⟩ := hmk
      have hev : l.events = (stackEv rest ++ (s.items.ev none ++ s.pre.ev (some s.pre.span))) ++
          .tombstone :: h.items.ev none := by
        rw [r.events, ho]; simp [stackEv]
      have hp : s.marker.pos
          = (stackEv rest ++ (s.items.ev none ++ s.pre.ev (some s.pre.span))).length := by
        rw [hpos, Saved.pos]; simp [Forest.ev_length]; omega
      refine ⟨⟨l.lexer, (stackEv rest ++ (s.items.ev none ++ s.pre.ev (some s.pre.span))) ++
          .start kind none :: h.items.ev none ++ [.finish], l.steps⟩, ?_, ?_⟩
      · show (match evComplete s.marker kind l.events with
          | some (c, evs) => Out.ok c { l with events := evs }
          | none => Out.panic .events) = _
        have : evComplete s.marker kind l.events = some (⟨s.marker.pos, h.n, kind⟩,
            (stackEv rest ++ (s.items.ev none ++ s.pre.ev (some s.pre.span))) ++
          .start kind none :: h.items.ev none ++ [.finish]) := by
          unfold evComplete
          rw [r.n]
          rw [hp, hev, get_middle]
          simp only [Event.tombstone]
          rw [set_middle]
        rw [this]
      · refine ⟨r.lexer, r.steps, ?_, ?_, hrest, hw1, hk, hw2, hw3, r.wf⟩
        · simp [Forest.ev]
        · have := r.len
          rw [ho] at this
          simp only [stackEv, List.length_append, Forest.ev_length, List.length_cons,
            List.length_nil] at this ⊢
          omega
    · trivial

theorem ev_eq_nil {f : Forest} (h : f.len = 0) : f = .nil := by
  cases f with
  | nil => rfl
  | _ => simp [Forest.len] at h

theorem agree_abandon {h : HState} {l : PState} (m : Marker) (r : Rep h l) :
    Agree (highLevel.abandon m h) (lowLevel.abandon m l) := by
  show Agree (hAbandon m h) _
  unfold hAbandon
  cases ho : h.outer with
  | nil => trivial
  | cons s rest =>
    simp only
    split
    · rename_i hm
      obtain ⟨rfl, hpre⟩ := hm
      have hmk := r.markers
      rw [ho] at hmk
      obtain ⟨hpos, hw1, hw2, hw3, hrest⟩ := hmk
      have hev : l.events = (stackEv rest ++ s.items.ev none) ++ .tombstone :: h.items.ev none := by
        rw [r.events, ho]; simp [stackEv, hpre, Forest.ev]
      have hp : s.marker.pos = (stackEv rest ++ s.items.ev none).length := by
        rw [hpos, Saved.pos, hpre]; simp [Forest.ev_length, Forest.len]
      have hne : l.events ≠ [] := by rw [hev]; simp
      split
      · rename_i hnil
        rw [hnil, Forest.ev] at hev
        have hlen : l.events.length = s.marker.pos + 1 := by rw [hev, hp]; simp; omega
        refine ⟨{ l with events := stackEv rest ++ s.items.ev none }, ?_, ?_⟩
        · show (match evAbandon s.marker l.events with
            | some evs => Out.ok () { l with events := evs }
            | none => Out.panic .events) = _
          have : evAbandon s.marker l.events = some (stackEv rest ++ s.items.ev none) := by
            unfold evAbandon
            rw [if_neg hne, if_pos (by omega), hp, hev, get_middle]
            simp only [Event.tombstone]
            rw [List.dropLast_concat]
          rw [this]
        · refine ⟨r.lexer, r.steps, rfl, ?_, hrest, hw1⟩
          show h.n - 1 = _
          rw [r.n, hlen, hp]; simp
      · rename_i hnn
        have hpos' : 0 < h.items.len := by
          rcases Nat.eq_zero_or_pos h.items.len with h0 | h0
          · exact absurd (ev_eq_nil h0) hnn
          · exact h0
        have hlen : s.marker.pos + 1 < l.events.length := by
          rw [hev, hp]; simp [Forest.ev_length]; omega
        refine ⟨l, ?_, ?_⟩
        · show (match evAbandon s.marker l.events with
            | some evs => Out.ok () { l with events := evs }
            | none => Out.panic .events) = _
          have : evAbandon s.marker l.events = some l.events := by
            unfold evAbandon
            rw [if_neg hne, if_neg (by omega)]
          rw [this]
        · refine ⟨r.lexer, r.steps, ?_, r.n, hrest, Forest.wf_append hw1 r.wf⟩
          show l.events = stackEv rest ++ _
          rw [Forest.ev_append _ _ _ (.inr rfl), hev]
          simp [Forest.ev]
    · trivial

theorem agree_precede {h : HState} {l : PState} (c : Completed) (r : Rep h l) :
    Agree (highLevel.precede c h) (lowLevel.precede c l) := by
  show Agree (hPrecede c h) _
  unfold hPrecede
  cases hi : h.items with
  | node init kind pre kids =>
    simp only
    split
    · rename_i hc
      have hw := r.wf
      rw [hi] at hw
      obtain ⟨hw1, hk, hs, hwp, hwk⟩ := hw
      have hev : l.events = (stackEv h.outer ++ (init.ev none ++ pre.ev (some pre.span))) ++
          .start kind none :: (kids.ev none ++ [.finish]) := by
        rw [r.events, hi]; simp [Forest.ev]
      have hp : c.startPos = (stackEv h.outer ++ (init.ev none ++ pre.ev (some pre.span))).length := by
        have := r.n
        rw [hev] at this
        simp [Forest.ev_length] at this ⊢
        omega
      refine ⟨⟨l.lexer, (stackEv h.outer ++ (init.ev none ++ pre.ev (some pre.span))) ++
          .start kind (some (kids.len + 2)) :: ((kids.ev none ++ [.finish]) ++ [.tombstone]), l.steps⟩,
        ?_, ?_⟩
      · show (match evPrecede c l.events with
            | some (m, evs) => Out.ok m { l with events := evs }
            | none => Out.panic .events) = _
        have : evPrecede c l.events = some (⟨h.n⟩,
            (stackEv h.outer ++ (init.ev none ++ pre.ev (some pre.span))) ++
          .start kind (some (kids.len + 2)) :: ((kids.ev none ++ [.finish]) ++ [.tombstone])) := by
          unfold evPrecede
          simp only
          have hget : (l.events ++ [Event.tombstone])[c.startPos]? = some (.start kind none) := by
            rw [hev, List.append_assoc, List.cons_append, hp, get_middle]
          rw [hget]
          simp only
          have hd : l.events.length - c.startPos = kids.len + 2 := by rw [← r.n]; omega
          rw [if_pos (by rw [← r.n]; omega), hd, r.n]
          congr 2
          rw [hev, List.append_assoc, List.cons_append, hp, set_middle]
        rw [this]
      · refine ⟨r.lexer, r.steps, ?_, ?_, ?_, trivial⟩
        · simp [stackEv, Forest.ev, Forest.span]
        · show h.n + 1 = _
          rw [r.n, hev]; simp; omega
        · refine ⟨?_, hw1, trivial, ⟨trivial, hk, hs, hwp, hwk⟩, r.markers⟩
          simp only [Saved.pos, Forest.len]
          have := r.len
          rw [hi] at this
          simp only [Forest.len] at this
          omega
    · trivial
  | _ => trivial

/-- The tree-building machine agrees with the one of the Rust code. -/
theorem highLevel_agree : MachineAgree Rep highLevel lowLevel where
  current h l r := by simp only [lowLevel, highLevel, r.lexer]
  currentText _ _ r := agree_currentText r
  nth n _ _ r := agree_nth n r
  doBump k _ _ r := agree_doBump k r
  start _ _ r := agree_start r
  complete m k _ _ r := agree_complete m k r
  abandon m _ _ r := agree_abandon m r
  precede c _ _ r := agree_precede c r
  error msg _ _ r := agree_error msg r

theorem callN_agree {S T : Type} {R : S → T → Prop} {M : Machine S} {N : Machine T}
    (ag : MachineAgree R M N) (body : (f : Fn) → Prog f.Res) (n : Nat) (f : Fn) (h : S) (l : T)
    (r : R h l) : AgreeR R (callN M body n f h) (callN N body n f l) := by
  induction n generalizing f h l with
  | zero => rfl
  | succ n ih => exact ag.run ih (body f) h l r

end Verif.Parser
