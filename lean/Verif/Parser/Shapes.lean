import Verif.Parser.Accept
import Verif.Parser.Tree

set_option autoImplicit false

/-!
What the tree builder makes of a forest, up to trivia: wherever the sink puts whitespace and
comments, the other nodes and leaves are those of the forest.
-/

namespace Verif.Parser

open Language

/-- The open nodes, with the trees before them, and the trees of the innermost one. -/
abbrev Open := List (Kind × List Shape) × List Shape

/-- Closes the innermost node. -/
def Open.close : Open → Open
  | ((k, before) :: rest, kids) => (rest, before ++ [.node k kids])
  | ([], kids) => ([], kids)

def Open.op : Open → Op → Open
  | (stack, kids), .startNode k => ((k, kids) :: stack, [])
  | o, .finishNode => o.close
  | (stack, kids), .token k _ => (stack, if k.isTrivia then kids else kids ++ [.leaf k])
  | o, .error _ => o

def Open.ops (o : Open) (os : List Op) : Open := os.foldl Open.op o

theorem Open.ops_append (o : Open) (a b : List Op) : o.ops (a ++ b) = (o.ops a).ops b :=
  List.foldl_append

theorem Open.ops_forest (F : Forest) (stack : List (Kind × List Shape)) (kids : List Shape) :
    Open.ops (stack, kids) F.ops = (stack, kids ++ F.shape) := by
  induction F generalizing stack kids with
  | nil => simp [Forest.ops, Forest.shape, Open.ops]
  | tok i k ih =>
    rw [Forest.ops, Open.ops_append, ih]
    simp only [Open.ops, List.foldl, Open.op, Forest.shape]
    split <;> simp
  | err i m ih => rw [Forest.ops, Open.ops_append, ih]; rfl
  | tomb i ih => rw [Forest.ops, ih]; rfl
  | node i k pre kids' ih1 ih2 ih3 =>
    rw [Forest.ops, Open.ops_append, ih1]
    show Open.ops ((k, kids ++ i.shape) :: stack, []) _ = _
    rw [Open.ops_append, ih2, Open.ops_append, ih3]
    simp [Open.ops, Open.op, Open.close, Forest.shape]

/-- The builder, up to trivia. -/
def Builder.open (b : Builder) : Open := (b.parents.map fun x => (x.1, x.2.shapes), b.children.shapes)

/-- The sink, up to trivia. -/
def Sink.open (s : Sink) : Open :=
  if s.state = .pendingFinish then s.inner.open.close else s.inner.open

theorem open_innerFinish {s s' : Sink} (h : s.innerFinish = some s') :
    s'.inner.open = s.inner.open.close ∧ s'.state = s.state ∧ s'.errors = s.errors := by
  unfold Sink.innerFinish Builder.finishNode at h
  split at h
  · cases h
  · rename_i kind outer rest hp
    cases h
    refine ⟨?_, rfl, rfl⟩
    simp [Builder.open, hp, Open.close, Green.shapes]

theorem open_doToken {s s' : Sink} {k : Kind} {len n : Nat} (h : s.doToken k len n = some s') :
    s'.inner.open = s.inner.open.op (.token k n) ∧ s'.state = s.state ∧ s'.errors = s.errors := by
  unfold Sink.doToken at h
  rw [Option.map_eq_some_iff] at h
  obtain ⟨t, _, rfl⟩ := h
  refine ⟨?_, rfl, rfl⟩
  simp only [Builder.open, Builder.token, Open.op, Green.shapes]

/-- The same, and nothing changed up to trivia. -/
def Alike (s s' : Sink) : Prop := s'.inner.open = s.inner.open ∧ s'.state = s.state ∧ s'.errors = s.errors

theorem alike_doToken {s s' : Sink} {k : Kind} {len n : Nat} (hk : k.isTrivia = true)
    (h : s.doToken k len n = some s') : Alike s s' := by
  obtain ⟨h1, h2⟩ := open_doToken h
  refine ⟨?_, h2⟩
  rw [h1]
  simp only [Open.op, hk, if_true]

theorem alike_eatTriviasFuel (fuel : Nat) {s s' : Sink} (h : s.eatTriviasFuel fuel = some s') : Alike s s' := by
  induction fuel generalizing s with
  | zero => cases h; exact ⟨rfl, rfl, rfl⟩
  | succ n ih =>
    unfold Sink.eatTriviasFuel at h
    split at h
    · cases h; exact ⟨rfl, rfl, rfl⟩
    · split at h
      · cases h; exact ⟨rfl, rfl, rfl⟩
      · rename_i hk
        rw [Option.bind_eq_some_iff] at h
        obtain ⟨s1, h1, h2⟩ := h
        obtain ⟨a1, a2, a3⟩ := alike_doToken (by simpa using hk) h1
        obtain ⟨b1, b2, b3⟩ := ih h2
        exact ⟨b1.trans a1, b2.trans a2, b3.trans a3⟩

theorem alike_eatNTrivias (n : Nat) {s s' : Sink} (h : Sink.eatNTrivias n s = some s') : Alike s s' := by
  induction n generalizing s with
  | zero => cases h; exact ⟨rfl, rfl, rfl⟩
  | succ n ih =>
    unfold Sink.eatNTrivias at h
    split at h
    · cases h
    · split at h
      · rename_i hk
        rw [Option.bind_eq_some_iff] at h
        obtain ⟨s1, h1, h2⟩ := h
        obtain ⟨a1, a2, a3⟩ := alike_doToken hk h1
        obtain ⟨b1, b2, b3⟩ := ih h2
        exact ⟨b1.trans a1, b2.trans a2, b3.trans a3⟩
      · cases h

/-- The messages of a list of errors. -/
def messages (errors : List SyntaxError) : List String := errors.map SyntaxError.msg

/-- The message a call reports. -/
def Op.msgs : Op → List String
  | .error m => [m]
  | _ => []

/-- The messages of a forest. -/
def Forest.msgs : Forest → List String
  | .nil => []
  | .tok init _ => init.msgs
  | .err init m => init.msgs ++ [m]
  | .tomb init => init.msgs
  | .node init _ pre kids => init.msgs ++ pre.msgs ++ kids.msgs

theorem open_token {s s' : Sink} {k : Kind} {n : Nat} (h : s.token k n = some s') :
    s'.open = s.open.op (.token k n) ∧ s'.errors = s.errors := by
  unfold Sink.token at h
  simp only [Option.bind_eq_some_iff] at h
  obtain ⟨s1, h1, s2, h2, h3⟩ := h
  have e1 : s1.inner.open = s.open ∧ s1.state = .normal ∧ s1.errors = s.errors := by
    unfold Sink.open
    cases hs : s.state with
    | pendingStart => rw [hs] at h1; cases h1
    | pendingFinish =>
      rw [hs] at h1
      obtain ⟨a, b, c⟩ := open_innerFinish h1
      exact ⟨by rw [a, if_pos rfl], b, c⟩
    | normal =>
      rw [hs] at h1
      cases h1
      exact ⟨by rw [if_neg (by decide)], rfl, rfl⟩
  have e2 : Alike s1 s2 := by
    split at h2
    · exact alike_eatTriviasFuel _ h2
    · cases h2; exact ⟨rfl, rfl, rfl⟩
  split at h3
  · obtain ⟨a, b, c⟩ := open_doToken h3
    have hst : s'.state = .normal := by rw [b, e2.2.1, e1.2.1]
    refine ⟨?_, by rw [c, e2.2.2, e1.2.2]⟩
    unfold Sink.open
    rw [if_neg (by rw [hst]; decide), a, e2.1, e1.1]
    rfl
  · cases h3

theorem open_startNode_go {s s' : Sink} {k : Kind} (h : Sink.startNode.go k s = some s') :
    s'.inner.open = s.inner.open.op (.startNode k) ∧ s'.state = s.state ∧ s'.errors = s.errors := by
  unfold Sink.startNode.go at h
  split at h
  · rw [Option.map_eq_some_iff] at h
    obtain ⟨s1, h1, rfl⟩ := h
    obtain ⟨a, b, c⟩ := alike_eatNTrivias _ h1
    refine ⟨?_, b, c⟩
    show Open.op s1.inner.open (.startNode k) = _
    rw [a]
  · cases h

theorem open_op {s s' : Sink} {o : Op} (h : s.op o = some s') :
    s'.open = s.open.op o ∧ messages s'.errors = messages s.errors ++ o.msgs := by
  cases o with
  | error m =>
    cases h
    exact ⟨rfl, by simp [Sink.error, messages, Op.msgs]⟩
  | token k n => exact ⟨(open_token h).1, by rw [(open_token h).2]; exact (List.append_nil _).symm⟩
  | startNode k =>
    change s.startNode k = some s' at h
    unfold Sink.startNode at h
    cases hs : s.state with
    | pendingStart =>
      rw [hs] at h
      cases h
      refine ⟨?_, (List.append_nil _).symm⟩
      unfold Sink.open
      rw [hs, if_neg (by simp), if_neg (by simp)]
      rfl
    | pendingFinish =>
      rw [hs] at h
      simp only [Option.bind_eq_some_iff] at h
      obtain ⟨s1, h1, h2⟩ := h
      obtain ⟨a1, a2, a3⟩ := open_innerFinish h1
      obtain ⟨b1, b2, b3⟩ := open_startNode_go h2
      refine ⟨?_, by rw [b3, a3]; exact (List.append_nil _).symm⟩
      unfold Sink.open
      rw [hs, b2, a2, if_neg (by simp), if_pos rfl, b1, a1]
    | normal =>
      rw [hs] at h
      obtain ⟨b1, b2, b3⟩ := open_startNode_go h
      refine ⟨?_, by rw [b3]; exact (List.append_nil _).symm⟩
      unfold Sink.open
      rw [hs, b2, if_neg (by simp), if_neg (by simp), b1]
  | finishNode =>
    change s.finishNode = some s' at h
    unfold Sink.finishNode at h
    cases hs : s.state with
    | pendingStart => rw [hs] at h; cases h
    | pendingFinish =>
      rw [hs] at h
      obtain ⟨a1, a2, a3⟩ := open_innerFinish h
      refine ⟨?_, by rw [a3]; exact (List.append_nil _).symm⟩
      unfold Sink.open
      rw [hs, a2, if_pos rfl, if_pos rfl, a1]
      rfl
    | normal =>
      rw [hs] at h
      cases h
      refine ⟨?_, (List.append_nil _).symm⟩
      unfold Sink.open
      rw [hs, if_pos rfl, if_neg (by simp)]
      rfl

theorem open_ops {s s' : Sink} {os : List Op} (h : s.ops os = some s') :
    s'.open = s.open.ops os ∧ messages s'.errors = messages s.errors ++ os.flatMap Op.msgs := by
  induction os generalizing s with
  | nil => cases h; exact ⟨rfl, (List.append_nil _).symm⟩
  | cons o os ih =>
    simp only [Sink.ops, Option.bind_eq_some_iff] at h
    obtain ⟨s1, h1, h2⟩ := h
    obtain ⟨a, b⟩ := open_op h1
    obtain ⟨c, d⟩ := ih h2
    refine ⟨?_, by rw [d, b, List.flatMap_cons, List.append_assoc]⟩
    rw [c, a]
    rfl

theorem open_finish {s : Sink} {k : Kind} {tree : Green} {errors : List SyntaxError}
    (h : s.finish = some ((k, tree), errors)) :
    s.open.2 = [.node k tree.shapes] ∧ errors = s.errors := by
  unfold Sink.finish at h
  cases hs : s.state with
  | pendingStart => rw [hs] at h; cases h
  | normal => rw [hs] at h; cases h
  | pendingFinish =>
    rw [hs] at h
    simp only [Option.bind_eq_some_iff, Option.map_eq_some_iff] at h
    obtain ⟨s1, h1, s2, h2, t, h3, h4⟩ := h
    cases h4
    obtain ⟨a1, a2, a3⟩ := alike_eatTriviasFuel _ h1
    obtain ⟨b1, b2, b3⟩ := open_innerFinish h2
    refine ⟨?_, by rw [b3, a3]⟩
    unfold Sink.open
    rw [if_pos hs]
    have : s2.inner.open = s.inner.open.close := by rw [b1, a1]
    rw [← this]
    unfold Builder.finish at h3
    split at h3
    · rename_i kind kids hk
      cases h3
      simp [Builder.open, hk, Green.shapes]
    · cases h3

theorem forest_msgs (F : Forest) : F.ops.flatMap Op.msgs = F.msgs := by
  induction F with
  | nil => rfl
  | tok i k ih => simp [Forest.ops, Forest.msgs, ih, Op.msgs]
  | err i m ih => simp [Forest.ops, Forest.msgs, ih, Op.msgs]
  | tomb i ih => exact ih
  | node i k pre kids ih1 ih2 ih3 => simp [Forest.ops, Forest.msgs, ih1, ih2, ih3, Op.msgs]

theorem forest_no_msgs {F : Forest} (h : F.errs = 0) : F.msgs = [] := by
  induction F with
  | nil => rfl
  | tok i k ih => exact ih h
  | err i m ih => cases h
  | tomb i ih => exact ih h
  | node i k pre kids ih1 ih2 ih3 =>
    simp only [Forest.errs, Nat.add_eq_zero_iff] at h
    simp [Forest.msgs, ih1 h.1.1, ih2 h.1.2, ih3 h.2]

/-- The tree and the messages that come from a forest. -/
theorem build_shapes {text : Text} {toks : List Lexer.Token} {kids : Forest} {sink : Sink} {k : Kind}
    {tree : Green} {errors : List SyntaxError}
    (h1 : (Sink.new text toks).ops (Forest.node .nil .SOURCE_FILE .nil kids).ops = some sink)
    (h2 : sink.finish = some ((k, tree), errors)) :
    tree.shapes = kids.shape ∧ messages errors = kids.msgs := by
  obtain ⟨a, b⟩ := open_ops h1
  obtain ⟨c, d⟩ := open_finish h2
  rw [a] at c
  have e : (Sink.new text toks).open = ([], []) := rfl
  rw [e, Open.ops_forest] at c
  simp only [Forest.shape, List.nil_append, List.cons.injEq, Shape.node.injEq] at c
  refine ⟨c.1.2.symm, ?_⟩
  rw [d, b, forest_msgs]
  simp [Sink.new, messages, Forest.msgs]

end Verif.Parser
