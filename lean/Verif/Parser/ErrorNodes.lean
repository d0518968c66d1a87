import Verif.Parser.ErrorGrammar
import Verif.Parser.Strict

set_option autoImplicit false

/-!
Nodes of kind `ERROR` in the tree: in the range of each of them an error is reported.
-/

namespace Verif.Parser

/-! ### From the events to the forest -/

/-- Nodes of kind `ERROR` contain errors. -/
def Forest.Excused : Forest → Prop
  | .nil => True
  | .tok i _ => i.Excused
  | .err i _ => i.Excused
  | .tomb i => i.Excused
  | .node i k pre kids => i.Excused ∧ pre.Excused ∧ kids.Excused ∧ (k = .ERROR → kids.errs ≠ 0)

def Event.isError : Event → Bool
  | .error _ => true
  | _ => false

theorem errs_ev (F : Forest) (fp : Option Nat) : F.errs = ((F.ev fp).filter Event.isError).length := by
  induction F generalizing fp with
  | nil => rfl
  | tok i k ih => simp [Forest.ev, Forest.errs, ih none, Event.isError]
  | err i m ih => simp [Forest.ev, Forest.errs, ih none, List.filter, Event.isError]
  | tomb i ih => simp [Forest.ev, Forest.errs, ih none, Event.isError, Event.tombstone]
  | node i k pre kids h1 h2 h3 =>
    simp [Forest.ev, Forest.errs, h1 none, h2 (some pre.span), h3 none, Event.isError]
    omega

theorem told_excused (F : Forest) (fp : Option Nat) (a b : List Event) (h : Told (a ++ (F.ev fp ++ b))) : F.Excused := by
  induction F generalizing fp a b with
  | nil => trivial
  | tok i k ih => exact ih none a ([.token k 1] ++ b) (by simpa [Forest.ev] using h)
  | err i m ih => exact ih none a ([.error m] ++ b) (by simpa [Forest.ev] using h)
  | tomb i ih => exact ih none a ([.tombstone] ++ b) (by simpa [Forest.ev] using h)
  | node i k pre kids h1 h2 h3 =>
    refine ⟨h1 none a (Forest.ev (some pre.span) pre ++ (.start k fp :: (Forest.ev none kids ++ [.finish])) ++ b) ?_,
      h2 (some pre.span) (a ++ Forest.ev none i) (.start k fp :: (Forest.ev none kids ++ [.finish]) ++ b) ?_,
      h3 none (a ++ Forest.ev none i ++ Forest.ev (some pre.span) pre ++ [.start k fp]) (.finish :: b) ?_, ?_⟩
    · simpa [Forest.ev] using h
    · simpa [Forest.ev] using h
    · simpa [Forest.ev] using h
    · rintro rfl he
      generalize hpre : a ++ (Forest.ev none i ++ Forest.ev (some pre.span) pre) = before
      have hev : a ++ (Forest.ev fp (.node i .ERROR pre kids) ++ b) =
          before ++ (.start .ERROR fp :: (Forest.ev none kids ++ (.finish :: b))) := by
        rw [← hpre]; simp [Forest.ev]
      rw [hev] at h
      obtain ⟨msg, hm⟩ := h before.length fp (by simp)
      rw [List.getElem?_append_right (by omega)] at hm
      have hsub : before.length + 1 - before.length = 1 := by omega
      rw [hsub, List.getElem?_cons_succ] at hm
      rw [errs_ev kids none] at he
      cases hk : Forest.ev none kids with
      | nil => rw [hk] at hm; cases hm
      | cons e es =>
        rw [hk] at hm he
        cases hm
        simp [Event.isError] at he

/-! ### From the forest to the tree -/

/-- The open nodes with the elements before them, and the elements of the innermost one. -/
abbrev View := List (Kind × Green) × Green

def View.close : View → View
  | ((k, g) :: rest, kids) => (rest, .node g k kids)
  | ([], kids) => ([], kids)

/-- What the sink has built; the node that waits to be finished is taken for finished. -/
def Sink.view (s : Sink) : View :=
  if s.state = .pendingFinish then View.close (s.inner.parents, s.inner.children) else (s.inner.parents, s.inner.children)

def stackLen : List (Kind × Green) → Nat
  | [] => 0
  | (_, g) :: rest => stackLen rest + byteLen g.text

def View.len (v : View) : Nat := stackLen v.1 + byteLen v.2.text

/-- The position in the text is the end of what has been built. -/
def Sink.AtEnd (s : Sink) : Prop := s.textPos = s.view.len

theorem green_text_leaf (g : Green) (k : Kind) (t : Text) : (Green.leaf g k t).text = g.text ++ t := by
  simp [Green.text, Green.leaves]

theorem green_text_node (g : Green) (k : Kind) (kids : Green) : (Green.node g k kids).text = g.text ++ kids.text := by
  simp [Green.text, Green.leaves]

theorem len_append (a b : Text) : byteLen (a ++ b) = byteLen a + byteLen b := by simp

theorem close_len (v : View) : v.close.len = v.len := by
  obtain ⟨ps, g⟩ := v
  cases ps with
  | nil => rfl
  | cons p rest =>
    obtain ⟨k, g'⟩ := p
    simp only [View.close, View.len, stackLen, green_text_node, len_append]
    omega

/-- `c'` is `c` followed by leaves. -/
inductive Adds (c : Green) : Green → Prop
  | refl : Adds c c
  | leaf {c' : Green} (k : Kind) (t : Text) : Adds c c' → Adds c (.leaf c' k t)

theorem Adds.trans {a b c : Green} (h1 : Adds a b) (h2 : Adds b c) : Adds a c := by
  induction h2 with
  | refl => exact h1
  | leaf k t _ ih => exact .leaf k t ih

theorem splitAtByte_len {n : Nat} {text a b : Text} (h : Edits.splitAtByte n text = some (a, b)) : byteLen a = n := by
  induction text generalizing n a b with
  | nil =>
    cases n with
    | zero => simp [Edits.splitAtByte] at h; simp [h.1]
    | succ n => simp [Edits.splitAtByte] at h
  | cons c cs ih =>
    cases n with
    | zero => simp [Edits.splitAtByte] at h; simp [h.1]
    | succ n =>
      simp only [Edits.splitAtByte] at h
      split at h
      · split at h
        · cases h
        · rename_i hx
          cases h
          have := ih hx
          simp
          omega
      · cases h

theorem sliceRange_len {text t : Text} {a b : Nat} (h : Lexer.sliceRange text a b = some t) : byteLen t = b - a := by
  unfold Lexer.sliceRange at h
  split at h
  · split at h
    · cases h
    · rw [Option.map_eq_some_iff] at h
      obtain ⟨⟨x, y⟩, hx, rfl⟩ := h
      exact splitAtByte_len hx
  · cases h

/-- The end of the builder's elements. -/
def Sink.innerLen (s : Sink) : Nat := stackLen s.inner.parents + byteLen s.inner.children.text

theorem doToken_adds {s s' : Sink} {k : Kind} {len n : Nat} (h : s.doToken k len n = some s') :
    ∃ t, s'.inner.children = .leaf s.inner.children k t ∧ s'.inner.parents = s.inner.parents ∧ s'.state = s.state ∧
      s'.errors = s.errors ∧ s.textPos ≤ s'.textPos ∧ (s.textPos = s.innerLen → s'.textPos = s'.innerLen) := by
  unfold Sink.doToken at h
  rw [Option.map_eq_some_iff] at h
  obtain ⟨t, ht, rfl⟩ := h
  refine ⟨t, rfl, rfl, rfl, rfl, by simp, fun hp => ?_⟩
  have := sliceRange_len ht
  simp only [Sink.innerLen, Builder.token, green_text_leaf, len_append] at hp ⊢
  omega

/-- Only leaves were added. -/
structure More (s s' : Sink) : Prop where
  adds : Adds s.inner.children s'.inner.children
  parents : s'.inner.parents = s.inner.parents
  state : s'.state = s.state
  errors : s'.errors = s.errors
  pos : s.textPos ≤ s'.textPos
  len : s.textPos = s.innerLen → s'.textPos = s'.innerLen

theorem More.refl (s : Sink) : More s s := ⟨.refl, rfl, rfl, rfl, Nat.le_refl _, id⟩

theorem More.trans {a b c : Sink} (h1 : More a b) (h2 : More b c) : More a c :=
  ⟨h1.adds.trans h2.adds, h2.parents.trans h1.parents, h2.state.trans h1.state, h2.errors.trans h1.errors,
    Nat.le_trans h1.pos h2.pos, fun h => h2.len (h1.len h)⟩

theorem more_doToken {s s' : Sink} {k : Kind} {len n : Nat} (h : s.doToken k len n = some s') : More s s' := by
  obtain ⟨t, h1, h2, h3, h4, h5, h6⟩ := doToken_adds h
  exact ⟨by rw [h1]; exact .leaf k t .refl, h2, h3, h4, h5, h6⟩

theorem more_eatTriviasFuel (fuel : Nat) {s s' : Sink} (h : s.eatTriviasFuel fuel = some s') : More s s' := by
  induction fuel generalizing s with
  | zero => cases h; exact .refl _
  | succ n ih =>
    unfold Sink.eatTriviasFuel at h
    split at h
    · cases h; exact .refl _
    · split at h
      · cases h; exact .refl _
      · rw [Option.bind_eq_some_iff] at h
        obtain ⟨s1, h1, h2⟩ := h
        exact (more_doToken h1).trans (ih h2)

theorem more_eatNTrivias (n : Nat) {s s' : Sink} (h : Sink.eatNTrivias n s = some s') : More s s' := by
  induction n generalizing s with
  | zero => cases h; exact .refl _
  | succ n ih =>
    unfold Sink.eatNTrivias at h
    split at h
    · cases h
    · split at h
      · rw [Option.bind_eq_some_iff] at h
        obtain ⟨s1, h1, h2⟩ := h
        exact (more_doToken h1).trans (ih h2)
      · cases h

/-- The sink after the waiting node was finished. -/
theorem innerFinish_view {s s' : Sink} (h : s.innerFinish = some s') :
    (s'.inner.parents, s'.inner.children) = View.close (s.inner.parents, s.inner.children) ∧ s'.state = s.state ∧
      s'.errors = s.errors ∧ s'.textPos = s.textPos := by
  unfold Sink.innerFinish Builder.finishNode at h
  split at h
  · cases h
  · rename_i kind outer rest hp
    cases h
    refine ⟨?_, rfl, rfl, rfl⟩
    simp [View.close, hp]

/-- What was built before an operation, with the waiting node finished: the common beginning of `token` and
`start_node`. -/
theorem settled {s s1 : Sink} (h : (match s.state with
      | .pendingStart => none
      | .pendingFinish => Sink.innerFinish { s with state := .normal }
      | .normal => some { s with state := .normal }) = some s1) :
    (s1.inner.parents, s1.inner.children) = s.view ∧ s1.state = .normal ∧ s1.errors = s.errors ∧
      s1.textPos = s.textPos := by
  unfold Sink.view
  cases hs : s.state with
  | pendingStart => rw [hs] at h; cases h
  | pendingFinish =>
    rw [hs] at h
    obtain ⟨a, b, c, d⟩ := innerFinish_view h
    exact ⟨by rw [if_pos rfl]; exact a, b, c, d⟩
  | normal =>
    rw [hs] at h
    cases h
    exact ⟨by rw [if_neg (by decide)], rfl, rfl, rfl⟩

/-- The result of an operation. -/
structure Moved (s s' : Sink) : Prop where
  state : s'.state ≠ .pendingStart
  pos : s.textPos ≤ s'.textPos
  atEnd : s.AtEnd → s'.AtEnd

theorem view_normal {s : Sink} (h : s.state = .normal) : s.view = (s.inner.parents, s.inner.children) := by
  unfold Sink.view; rw [h, if_neg (by decide)]

theorem atEnd_normal {s : Sink} (h : s.state = .normal) : s.AtEnd ↔ s.textPos = s.innerLen := by
  unfold Sink.AtEnd; rw [view_normal h]; rfl

theorem settled_atEnd {s s1 : Sink} (hv : (s1.inner.parents, s1.inner.children) = s.view) (hp : s1.textPos = s.textPos)
    (h : s.AtEnd) : s1.textPos = s1.innerLen := by
  unfold Sink.AtEnd at h
  rw [hp, h, ← hv]
  rfl

theorem token_view {s s' : Sink} {k : Kind} {n : Nat} (h : s.token k n = some s') :
    Moved s s' ∧ s'.errors = s.errors ∧ s'.view.1 = s.view.1 ∧ Adds s.view.2 s'.view.2 := by
  unfold Sink.token at h
  simp only [Option.bind_eq_some_iff] at h
  obtain ⟨s1, h1, s2, h2, h3⟩ := h
  obtain ⟨v1, st1, er1, p1⟩ := settled h1
  have m2 : More s1 s2 := by
    split at h2
    · exact more_eatTriviasFuel _ h2
    · cases h2; exact .refl _
  split at h3
  · have m3 := m2.trans (more_doToken h3)
    have hst : s'.state = .normal := by rw [m3.state, st1]
    refine ⟨⟨by rw [hst]; decide, by have := m3.pos; omega, fun ha => ?_⟩, by rw [m3.errors, er1], ?_, ?_⟩
    · exact (atEnd_normal hst).2 (m3.len (settled_atEnd v1 p1 ha))
    · rw [view_normal hst, ← v1]; exact m3.parents
    · rw [view_normal hst, ← v1]; exact m3.adds
  · cases h3

theorem startNode_view {s s' : Sink} {k : Kind} (hs : s.state ≠ .pendingStart) (h : s.startNode k = some s') :
    Moved s s' ∧ s'.errors = s.errors ∧
      ∃ c, s'.view = ((k, c) :: s.view.1, .nil) ∧ Adds s.view.2 c := by
  have hgo : ∃ s1, (match s.state with
      | .pendingStart => none
      | .pendingFinish => Sink.innerFinish { s with state := .normal }
      | .normal => some { s with state := .normal }) = some s1 ∧ Sink.startNode.go k s1 = some s' := by
    unfold Sink.startNode at h
    cases hst : s.state with
    | pendingStart => exact absurd hst hs
    | pendingFinish =>
      rw [hst] at h
      simp only [Option.bind_eq_some_iff] at h
      obtain ⟨s1, h1, h2⟩ := h
      exact ⟨s1, h1, h2⟩
    | normal => rw [hst] at h; exact ⟨_, rfl, h⟩
  obtain ⟨s1, h1, h2⟩ := hgo
  obtain ⟨v1, st1, er1, p1⟩ := settled h1
  unfold Sink.startNode.go at h2
  split at h2
  · rw [Option.map_eq_some_iff] at h2
    obtain ⟨s2, h3, rfl⟩ := h2
    have m2 := more_eatNTrivias _ h3
    have hst : s2.state = .normal := by rw [m2.state, st1]
    have hv : Sink.view { s2 with inner := s2.inner.startNode k } = ((k, s2.inner.children) :: s2.inner.parents, .nil) :=
      view_normal hst
    refine ⟨⟨by show s2.state ≠ _; rw [hst]; decide, by have := m2.pos; show s.textPos ≤ s2.textPos; omega, fun ha => ?_⟩,
      by show s2.errors = _; rw [m2.errors, er1], s2.inner.children, ?_, ?_⟩
    · have hl := m2.len (settled_atEnd v1 p1 ha)
      unfold Sink.AtEnd
      rw [hv]
      show s2.textPos = _
      rw [hl]
      simp [Sink.innerLen, View.len, stackLen, Green.text, Green.leaves]
    · rw [hv, m2.parents, ← v1]
    · rw [← v1]; exact m2.adds
  · cases h2

theorem finishNode_view {s s' : Sink} (h : s.finishNode = some s') :
    Moved s s' ∧ s'.errors = s.errors ∧ s'.view = s.view.close ∧ s'.textPos = s.textPos := by
  unfold Sink.finishNode at h
  cases hs : s.state with
  | pendingStart => rw [hs] at h; cases h
  | pendingFinish =>
    rw [hs] at h
    obtain ⟨a, b, c, d⟩ := innerFinish_view h
    have hv : s'.view = s.view.close := by
      unfold Sink.view
      rw [b, hs, if_pos rfl, if_pos rfl, a]
    refine ⟨⟨by rw [b]; simp, by rw [d]; exact Nat.le_refl _, fun ha => ?_⟩, c, hv, d⟩
    unfold Sink.AtEnd at ha ⊢
    rw [hv, close_len, ← ha, d]
  | normal =>
    rw [hs] at h
    cases h
    have hv : Sink.view { s with state := .pendingFinish } = s.view.close := by
      unfold Sink.view
      rw [hs, if_pos rfl, if_neg (by decide)]
    refine ⟨⟨by simp, Nat.le_refl _, fun ha => ?_⟩, rfl, hv, rfl⟩
    unfold Sink.AtEnd at ha ⊢
    rw [hv, close_len]
    exact ha

/-- Each node of kind `ERROR` has an error of `E` in its range; the sequence starts at `off`. -/
def Covered (E : List SyntaxError) (off : Nat) : Green → Prop
  | .nil => True
  | .leaf init _ _ => Covered E off init
  | .node init k kids => Covered E off init ∧ Covered E (off + byteLen init.text) kids ∧
      (k = .ERROR → ∃ e ∈ E, off + byteLen init.text ≤ e.offset ∧
        e.offset ≤ off + byteLen init.text + byteLen kids.text)

theorem Covered.mono {E E' : List SyntaxError} (hE : ∀ e ∈ E, e ∈ E') {g : Green} {off : Nat} (h : Covered E off g) :
    Covered E' off g := by
  induction g generalizing off with
  | nil => trivial
  | leaf init k t ih => exact ih h
  | node init k kids h1 h2 =>
    refine ⟨h1 h.1, h2 h.2.1, fun hk => ?_⟩
    obtain ⟨e, he, hr⟩ := h.2.2 hk
    exact ⟨e, hE e he, hr⟩

theorem Covered.adds {E : List SyntaxError} {off : Nat} {c c' : Green} (h : Covered E off c) (ha : Adds c c') :
    Covered E off c' := by
  induction ha with
  | refl => exact h
  | leaf k t _ ih => exact ih

/-- What the operations of a forest do. -/
structure Walked (F : Forest) (P : List (Kind × Green)) (s s' : Sink) : Prop where
  moved : Moved s s'
  parents : s'.view.1 = P
  covered : Covered s'.errors (stackLen P) s'.view.2
  errors : ∃ ext, s'.errors = s.errors ++ ext ∧ (∀ e ∈ ext, s.textPos ≤ e.offset ∧ e.offset ≤ s'.textPos) ∧
    (F.errs ≠ 0 → ext ≠ [])

theorem ops_append_some {a b : List Op} {s s' : Sink} (h : s.ops (a ++ b) = some s') :
    ∃ s1, s.ops a = some s1 ∧ s1.ops b = some s' := by
  rw [ops_append, Option.bind_eq_some_iff] at h
  exact h

theorem ops_one {o : Op} {s s' : Sink} (h : s.ops [o] = some s') : s.op o = some s' := by
  simp only [Sink.ops, Option.bind_eq_some_iff] at h
  obtain ⟨s1, h1, h2⟩ := h
  cases h2
  exact h1

theorem Moved.trans {a b c : Sink} (h1 : Moved a b) (h2 : Moved b c) : Moved a c :=
  ⟨h2.state, Nat.le_trans h1.pos h2.pos, fun h => h2.atEnd (h1.atEnd h)⟩

theorem Moved.refl {s : Sink} (h : s.state ≠ .pendingStart) : Moved s s := ⟨h, Nat.le_refl _, id⟩

theorem walk_forest (F : Forest) (hF : F.Excused) {s s' : Sink} {P : List (Kind × Green)} (h : s.ops F.ops = some s')
    (hs : s.state ≠ .pendingStart) (hp : s.AtEnd) (hP : s.view.1 = P) (hc : Covered s.errors (stackLen P) s.view.2) :
    Walked F P s s' := by
  induction F generalizing s s' P with
  | nil =>
    cases h
    exact ⟨.refl hs, hP, hc, [], by simp, by simp, fun h => absurd rfl h⟩
  | tok i k ih =>
    obtain ⟨s1, h1, h2⟩ := ops_append_some h
    have w := ih hF h1 hs hp hP hc
    obtain ⟨m, e, v, a⟩ := token_view (ops_one h2)
    obtain ⟨ext, x1, x2, x3⟩ := w.errors
    refine ⟨w.moved.trans m, v.trans w.parents, ?_, ext, by rw [e, x1], fun y hy => ⟨(x2 y hy).1, ?_⟩, x3⟩
    · rw [e]; exact w.covered.adds a
    · exact Nat.le_trans (x2 y hy).2 m.pos
  | err i msg ih =>
    obtain ⟨s1, h1, h2⟩ := ops_append_some h
    have w := ih hF h1 hs hp hP hc
    cases ops_one h2
    obtain ⟨ext, x1, x2, x3⟩ := w.errors
    refine ⟨w.moved.trans ⟨w.moved.state, Nat.le_refl _, id⟩, w.parents, ?_, ext ++ [⟨msg, s1.textPos⟩], ?_, ?_, by simp⟩
    · exact w.covered.mono fun e he => List.mem_append_left _ he
    · simp [Sink.error, x1]
    · intro y hy
      rw [List.mem_append, List.mem_singleton] at hy
      rcases hy with hy | rfl
      · exact x2 y hy
      · exact ⟨w.moved.pos, Nat.le_refl _⟩
  | tomb i ih =>
    have w := ih hF h hs hp hP hc
    exact ⟨w.moved, w.parents, w.covered, w.errors⟩
  | node i k pre kids ih1 ih2 ih3 =>
    obtain ⟨hF1, hF2, hF3, hF4⟩ := hF
    obtain ⟨s1, h1, hr⟩ := ops_append_some h
    have w1 := ih1 hF1 h1 hs hp hP hc
    simp only [Sink.ops, Option.bind_eq_some_iff] at hr
    obtain ⟨s2, h2, hr⟩ := hr
    obtain ⟨m2, e2, c, v2, a2⟩ := startNode_view w1.moved.state h2
    obtain ⟨s3, h3, hr⟩ := ops_append_some hr
    obtain ⟨s4, h4, hr⟩ := ops_append_some hr
    have ha2 := m2.atEnd (w1.moved.atEnd hp)
    have cov1 : Covered s2.errors (stackLen P) c := by rw [e2]; exact w1.covered.adds a2
    have w3 := ih2 hF2 (P := (k, c) :: P) h3 m2.state ha2 (by rw [v2, w1.parents]) (by rw [v2]; trivial)
    have ha3 := w3.moved.atEnd ha2
    have w4 := ih3 hF3 (P := (k, c) :: P) h4 w3.moved.state ha3 w3.parents w3.covered
    have ha4 := w4.moved.atEnd ha3
    obtain ⟨m5, e5, v5, p5⟩ := finishNode_view (ops_one hr)
    obtain ⟨x1, y1, z1, t1⟩ := w1.errors
    obtain ⟨x3, y3, z3, t3⟩ := w3.errors
    obtain ⟨x4, y4, z4, t4⟩ := w4.errors
    have hv4 : s4.view = ((k, c) :: P, s4.view.2) := Prod.ext w4.parents rfl
    have hv5 : s'.view = (P, .node c k s4.view.2) := by rw [v5, hv4]; rfl
    have hp2 : s2.textPos = stackLen P + byteLen c.text := by
      unfold Sink.AtEnd at ha2
      rw [ha2, v2, w1.parents]
      simp [View.len, stackLen, Green.text, Green.leaves]
    have hp4 : s4.textPos = stackLen P + byteLen c.text + byteLen s4.view.2.text := by
      unfold Sink.AtEnd at ha4
      rw [ha4, hv4]
      rfl
    have l1 := w1.moved.pos
    have l2 := m2.pos
    have l3 := w3.moved.pos
    have l4 := w4.moved.pos
    refine ⟨w1.moved.trans (m2.trans (w3.moved.trans (w4.moved.trans m5))), by rw [hv5], ?_, x1 ++ (x3 ++ x4), ?_, ?_, ?_⟩
    · rw [hv5, e5]
      refine ⟨cov1.mono fun e he => ?_, w4.covered, fun hk => ?_⟩
      · rw [y4, y3]; simp [he]
      · obtain ⟨e, es, hx⟩ : ∃ e es, x4 = e :: es := by
          cases x4 with
          | nil => exact absurd rfl (t4 (hF4 hk))
          | cons e es => exact ⟨e, es, rfl⟩
        have he : e ∈ x4 := by rw [hx]; simp
        have := z4 e he
        exact ⟨e, by rw [y4]; simp [he], by omega, by omega⟩
    · rw [e5, y4, y3, e2, y1]; simp
    · intro e he
      rw [List.mem_append, List.mem_append] at he
      rcases he with he | he | he
      · have := z1 e he; omega
      · have := z3 e he; omega
      · have := z4 e he; omega
    · intro he hx
      simp only [List.append_eq_nil_iff] at hx
      simp only [Forest.errs] at he
      have n1 : i.errs = 0 := Decidable.byContradiction fun h => t1 h hx.1
      have n3 : pre.errs = 0 := Decidable.byContradiction fun h => t3 h hx.2.1
      have n4 : kids.errs = 0 := Decidable.byContradiction fun h => t4 h hx.2.2
      omega

theorem covered_tree {text : Text} {toks : List Lexer.Token} {kids : Forest} (exc : kids.Excused) {sink : Sink} {k : Kind}
    {tree : Green} {errors : List SyntaxError}
    (h1 : (Sink.new text toks).ops (Forest.node .nil .SOURCE_FILE .nil kids).ops = some sink)
    (h2 : sink.finish = some ((k, tree), errors)) : Covered errors 0 tree := by
  have hops : (Forest.node .nil .SOURCE_FILE .nil kids).ops = .startNode .SOURCE_FILE :: (kids.ops ++ [.finishNode]) := rfl
  rw [hops] at h1
  simp only [Sink.ops, Option.bind_eq_some_iff] at h1
  obtain ⟨s1, hs, hr⟩ := h1
  cases hs
  obtain ⟨s2, hk, hf⟩ := ops_append_some hr
  have w := walk_forest kids exc (P := [(.SOURCE_FILE, .nil)]) hk (by intro h; cases h) rfl rfl trivial
  have hf := ops_one hf
  have hv2 := w.parents
  have cov := w.covered
  change s2.finishNode = some sink at hf
  unfold Sink.finishNode at hf
  unfold Sink.view at hv2 cov
  cases hst : s2.state with
  | pendingStart => exact absurd hst w.moved.state
  | normal =>
    rw [hst] at hf hv2 cov
    cases hf
    rw [if_neg (by decide)] at hv2 cov
    unfold Sink.finish at h2
    simp only [Option.bind_eq_some_iff, Option.map_eq_some_iff] at h2
    obtain ⟨s3, e1, s4, e2, t, e3, e4⟩ := h2
    cases e4
    have m := more_eatTriviasFuel _ e1
    obtain ⟨v4, _, er4, _⟩ := innerFinish_view e2
    have hp3 : s3.inner.parents = [(.SOURCE_FILE, .nil)] := m.parents.trans hv2
    rw [hp3] at v4
    simp only [View.close, Prod.mk.injEq] at v4
    unfold Builder.finish at e3
    rw [v4.2] at e3
    cases e3
    rw [er4, m.errors]
    exact cov.adds m.adds
  | pendingFinish =>
    rw [hst] at hf hv2 cov
    rw [if_pos rfl] at hv2 cov
    obtain ⟨v, st, er, _⟩ := innerFinish_view hf
    simp only at v
    have hp3 : sink.inner.parents = [(.SOURCE_FILE, .nil)] := by rw [← hv2, ← v]
    unfold Sink.finish at h2
    rw [st] at h2
    simp only [Option.bind_eq_some_iff, Option.map_eq_some_iff] at h2
    obtain ⟨s3, e1, s4, e2, t, e3, e4⟩ := h2
    cases e4
    have m := more_eatTriviasFuel _ e1
    obtain ⟨v4, _, er4, _⟩ := innerFinish_view e2
    have hp4 : s3.inner.parents = [(.SOURCE_FILE, .nil)] := m.parents.trans hp3
    rw [hp4] at v4
    simp only [View.close, Prod.mk.injEq] at v4
    unfold Builder.finish at e3
    rw [v4.2] at e3
    cases e3
    rw [er4, m.errors]
    have hc : sink.inner.children = (View.close (s2.inner.parents, s2.inner.children)).2 := by rw [← v]
    show Covered sink.errors 0 s3.inner.children
    rw [er]
    refine Covered.adds ?_ m.adds
    show Covered s2.errors 0 sink.inner.children
    rw [hc]
    exact cov

/-- In the tree of a file each node of kind `ERROR` has a reported error in its range. -/
theorem parse_covered {text : Text} {kind : Kind} {tree : Green} {errors : List SyntaxError}
    (h : parse text = .ok kind tree errors) : Covered errors 0 tree := by
  unfold parse parseWithDepth at h
  split at h
  · cases h
  · cases h
  · rename_i u l hev
    have told := parse_told hev
    -- the forest of the events
    unfold parseEvents at hev
    split at hev
    · cases hev
    · rename_i lx hnew
      have hg := root_good hnew (maxDepth text) (Nat.le_refl _)
      have he := run_erases (M := highLevel) (cb := callB highLevel body (maxDepth text))
        (c := callN highLevel body (maxDepth text))
        (fun f s => callB_erases highLevel body (maxDepth text) (maxDepth text) (Nat.le_refl _) f s) root
        (HState.initial lx, maxDepth text)
      have hlow := highLevel_agree.run (callN_agree highLevel_agree body (maxDepth text)) root (HState.initial lx)
        (PState.initial lx) ⟨rfl, rfl, rfl, rfl, trivial, trivial⟩
      generalize run (budgeted highLevel) (callB highLevel body (maxDepth text)) root
        (HState.initial lx, maxDepth text) = ob at hg he
      rcases he with rfl | he
      · exact absurd hg id
      · simp only at he
        rw [he] at hlow
        cases ob with
        | ok a st =>
          obtain ⟨hh, b⟩ := st
          obtain ⟨l', e3, rep⟩ := hlow
          have fin : Finished text hh := hg
          obtain ⟨kids, hi⟩ := fin.tree
          have : l' = l := by
            have := e3.symm.trans hev
            cases this
            rfl
          subst this
          have hev' : l'.events = (Forest.node .nil .SOURCE_FILE .nil kids).ev none := by
            rw [rep.events, fin.outer, hi]; rfl
          have hwf : (Forest.node .nil .SOURCE_FILE .nil kids).Wf := by
            have := rep.wf
            rwa [hi] at this
          have exc : kids.Excused := by
            rw [hev'] at told
            have := told_excused _ none [] [] (by simpa using told)
            exact this.2.2.1
          rw [hev', process_forest _ hwf] at h
          simp only at h
          split at h
          · cases h
          · rename_i sink hsink
            split at h
            · cases h
            · rename_i k' t' er' hfin
              split at h
              · cases h
                exact covered_tree exc hsink hfin
              · cases h
        | panic w =>
          have e3 : run lowLevel (callN lowLevel body (maxDepth text)) root (PState.initial lx) = .panic w := by
            rcases hg with rfl | rfl | rfl <;> exact hlow
          have := e3.symm.trans hev
          cases this
        | outOfFuel => exact absurd hg id

end Verif.Parser
