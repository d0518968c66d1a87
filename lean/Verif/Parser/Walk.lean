import Verif.Parser.SinkLemmas

set_option autoImplicit false

/-! The walk over a forest drives the sink from one good state to another. -/

namespace Verif.Parser

/-- The kinds of the tokens in a walk. -/
def opKinds (os : List Op) : List Kind :=
  os.filterMap fun
    | .token k _ => some k
    | _ => none

theorem opKinds_append (a b : List Op) : opKinds (a ++ b) = opKinds a ++ opKinds b := by
  unfold opKinds
  rw [List.filterMap_append]

theorem opKinds_ev (F : Forest) (fp : Option Nat) : opKinds F.ops = tokKinds (F.ev fp) := by
  induction F generalizing fp with
  | nil => rfl
  | tok i k ih =>
    simp only [Forest.ops, Forest.ev, opKinds_append, tokKinds_append, ih none]
    rfl
  | err i m ih =>
    simp only [Forest.ops, Forest.ev, opKinds_append, tokKinds_append, ih none]
    rfl
  | tomb i ih =>
    simp only [Forest.ops, Forest.ev, tokKinds_append, ih none]
    exact (List.append_nil _).symm
  | node i k pre kids ih1 ih2 ih3 =>
    simp only [Forest.ops, Forest.ev, opKinds_append, tokKinds_append, tokKinds_start, ih1 none,
      ih2 (some pre.span), ih3 none]
    show tokKinds (i.ev none) ++ opKinds (pre.ops ++ (kids.ops ++ [.finishNode])) = _
    simp only [opKinds_append, ih2 (some pre.span), ih3 none]
    rfl

/-- What is still to come, in a state where `pre` has been attached. -/
def Pending (pre : List (Kind × Text)) (ks : List Kind) (post : List (Kind × Text)) : Prop :=
  if pre = [] then Aligned0 ks post else Aligned ks post

/-- If the text starts with trivia and nothing has been attached yet, the first call attaches a
token. -/
def Starts (pre post : List (Kind × Text)) (os : List Op) : Prop :=
  pre = [] → ∀ x, post.head? = some x → x.1.isTrivia = true →
    ∀ o, os.head? = some o → ∃ k n, o = .token k n

/-- The number of open nodes after the calls; `none` if a finish has no start. -/
def depth : Nat → List Op → Option Nat
  | n, [] => some n
  | n, .startNode _ :: os => depth (n + 1) os
  | 0, .finishNode :: _ => none
  | n + 1, .finishNode :: os => depth n os
  | n, .token _ _ :: os => depth n os
  | n, .error _ :: os => depth n os

/-- The calls the grammar makes. -/
def OpOk : Op → Prop
  | .startNode k => isNodeKind k = true
  | .token _ n => n = 1
  | _ => True

/-- `ks` are the kinds of the tokens that come after `os`. -/
theorem walk (os : List Op) (ks : List Kind) (hok : ∀ o ∈ os, OpOk o) {s : Sink} {pre post : List (Kind × Text)}
    {ext base : List (Kind × Green)} {d : Nat} (inv : SInv s pre post)
    (hpend : Pending pre (opKinds os ++ ks) post) (hs : s.state ≠ .pendingStart)
    (hst : Starts pre post os) (hext : s.opens = ext ++ base) (hd : depth ext.length os = some d) :
    ∃ s' pre' post' ext', Sink.ops os s = some s' ∧ SInv s' pre' post' ∧ pre' ++ post' = pre ++ post ∧
      Pending pre' ks post' ∧ s'.state ≠ .pendingStart ∧ s'.opens = ext' ++ base ∧ ext'.length = d := by
  induction os generalizing s pre post ext with
  | nil =>
    cases hd
    exact ⟨s, pre, post, ext, rfl, inv, rfl, hpend, hs, hext, rfl⟩
  | cons o os ih =>
    have hok' : ∀ o ∈ os, OpOk o := fun o ho => hok o (List.mem_cons_of_mem _ ho)
    have ho := hok o (List.mem_cons_self ..)
    cases o with
    | startNode k =>
      -- the trivia before the node
      have htriv : ∃ t post', post = t ++ post' ∧ (∀ x ∈ t, x.1.isTrivia = true) ∧
          (∀ x, post'.head? = some x → x.1.isTrivia = false) ∧ Pending (pre ++ t) (opKinds os ++ ks) post' ∧
          Starts (pre ++ t) post' os := by
        unfold Pending at hpend
        split at hpend
        · rename_i hpre
          subst hpre
          have hhead : ∀ x, post.head? = some x → x.1.isTrivia = false := by
            intro x hx
            cases hx1 : x.1.isTrivia with
            | false => rfl
            | true =>
              obtain ⟨k', n, he⟩ := hst rfl x hx hx1 _ rfl
              cases he
          refine ⟨[], post, rfl, by simp, hhead, by unfold Pending; rw [if_pos (List.append_nil _)]; exact hpend, ?_⟩
          intro _ x hx hx1
          rw [hhead x hx] at hx1
          cases hx1
        · rename_i hpre
          obtain ⟨t, post', h1, h2, h3, h4⟩ := Aligned.dropTrivia hpend
          refine ⟨t, post', h1, h2, h3, ?_, ?_⟩
          · unfold Pending
            rw [if_neg (by simp [hpre])]
            exact h4
          · intro hnil; simp [hpre] at hnil
      obtain ⟨t, post', rfl, h2, h3, h4, h5⟩ := htriv
      obtain ⟨s', g, e1, i1, n1, o1⟩ := startNode_inv inv hs h2 h3 ho
      obtain ⟨s'', pre'', post'', ext'', e2, r⟩ := ih hok' (ext := (k, g) :: ext) i1 h4
        (by rw [n1]; decide) h5 (by rw [o1, hext]; rfl) hd
      refine ⟨s'', pre'', post'', ext'', ?_, r.1, ?_, r.2.2⟩
      · simp only [Sink.ops, Sink.op, e1, Option.bind_some, e2]
      · rw [r.2.1]; simp
    | finishNode =>
      cases ext with
      | nil => cases hd
      | cons p ext =>
        obtain ⟨s', e1, i1, n1, o1, _⟩ := finishNode_inv inv hs hext
        have h5 : Starts pre post os := by
          intro hpre x hx hx1
          obtain ⟨k', n, he⟩ := hst hpre x hx hx1 _ rfl
          cases he
        obtain ⟨s'', pre'', post'', ext'', e2, r⟩ := ih hok' i1 hpend (by rw [n1]; decide) h5 o1 hd
        refine ⟨s'', pre'', post'', ext'', ?_, r⟩
        simp only [Sink.ops, Sink.op, e1, Option.bind_some, e2]
    | error msg =>
      obtain ⟨i1, n1, o1⟩ := error_inv inv msg
      have h5 : Starts pre post os := by
        intro hpre x hx hx1
        obtain ⟨k', n, he⟩ := hst hpre x hx hx1 _ rfl
        cases he
      obtain ⟨s'', pre'', post'', ext'', e2, r⟩ := ih hok' i1 hpend (by rw [n1]; exact hs) h5
        (by rw [o1]; exact hext) hd
      refine ⟨s'', pre'', post'', ext'', ?_, r⟩
      simp only [Sink.ops, Sink.op, Option.bind_some, e2]
    | token kd n =>
      have hn : n = 1 := ho
      subst hn
      have htriv : ∃ t k u post', post = t ++ (k, u) :: post' ∧ (∀ x ∈ t, x.1.isTrivia = true) ∧
          KindFor kd k ∧ (pre ≠ [] → k.isTrivia = false) ∧ (pre = [] → t = []) ∧
          Aligned (opKinds os ++ ks) post' := by
        have hkinds : opKinds (.token kd 1 :: os) ++ ks = kd :: (opKinds os ++ ks) := rfl
        rw [hkinds] at hpend
        unfold Pending at hpend
        split at hpend
        · rename_i hpre
          cases hpend with
          | cons h1 h2 => exact ⟨[], _, _, _, rfl, by simp, h1, (fun h => absurd hpre h), fun _ => rfl, h2⟩
        · rename_i hpre
          cases hpend with
          | cons h1 h2 h3 h4 =>
            exact ⟨_, _, _, _, rfl, h1, h2, (fun _ => h3), fun h => absurd h hpre, h4⟩
      obtain ⟨t, k, u, post', rfl, h1, h2, h3, h4, h5⟩ := htriv
      obtain ⟨s', e1, i1, n1, o1⟩ := token_inv inv hs h1 h2 h3 h4
      obtain ⟨s'', pre'', post'', ext'', e2, r⟩ := ih hok' i1
        (by unfold Pending; rw [if_neg (by simp)]; exact h5) n1
        (fun hnil => by simp at hnil) (by rw [o1]; exact hext) hd
      refine ⟨s'', pre'', post'', ext'', ?_, r.1, ?_, r.2.2⟩
      · simp only [Sink.ops, Sink.op, e1, Option.bind_some, e2]
      · rw [r.2.1]; simp

theorem ops_append (a b : List Op) (s : Sink) : Sink.ops (a ++ b) s = (Sink.ops a s).bind (Sink.ops b) := by
  induction a generalizing s with
  | nil => rfl
  | cons o a ih =>
    simp only [List.cons_append, Sink.ops]
    cases s.op o with
    | none => rfl
    | some s' => exact ih s'

theorem depth_forest (F : Forest) (n : Nat) (os : List Op) : depth n (F.ops ++ os) = depth n os := by
  induction F generalizing n os with
  | nil => rfl
  | tok i k ih => simp only [Forest.ops, List.append_assoc, ih, List.cons_append, List.nil_append]; cases n <;> rfl
  | err i m ih => simp only [Forest.ops, List.append_assoc, ih, List.cons_append, List.nil_append]; cases n <;> rfl
  | tomb i ih => exact ih n os
  | node i k pre kids ih1 ih2 ih3 =>
    simp only [Forest.ops, List.append_assoc, ih1, List.cons_append, List.nil_append]
    show depth (n + 1) _ = _
    rw [ih2, ih3]
    rfl

theorem opOk_forest (F : Forest) (hw : F.Wf) : ∀ o ∈ F.ops, OpOk o := by
  induction F with
  | nil => intro o ho; cases ho
  | tok i k ih =>
    intro o ho
    rw [Forest.ops, List.mem_append, List.mem_singleton] at ho
    rcases ho with ho | rfl
    · exact ih hw o ho
    · rfl
  | err i m ih =>
    intro o ho
    rw [Forest.ops, List.mem_append, List.mem_singleton] at ho
    rcases ho with ho | rfl
    · exact ih hw o ho
    · trivial
  | tomb i ih => exact ih hw
  | node i k pre kids ih1 ih2 ih3 =>
    intro o ho
    simp only [Forest.ops, List.mem_append, List.mem_cons, List.not_mem_nil, or_false] at ho
    rcases ho with ho | rfl | ho | ho | rfl
    · exact ih1 hw.1 o ho
    · exact hw.2.1
    · exact ih2 hw.2.2.2.1 o ho
    · exact ih3 hw.2.2.2.2 o ho
    · trivial

theorem Balanced.append {a b : List Op} (ha : Balanced a) (hb : Balanced b) : Balanced (a ++ b) := by
  induction hb with
  | nil => rw [List.append_nil]; exact ha
  | token k n _ ih => rw [← List.append_assoc]; exact .token k n ih
  | error m _ ih => rw [← List.append_assoc]; exact .error m ih
  | node k _ h2 ih1 _ => rw [← List.append_assoc]; exact .node k ih1 h2

theorem balanced_forest (F : Forest) : Balanced F.ops := by
  induction F with
  | nil => exact .nil
  | tok i k ih => exact .token k 1 ih
  | err i m ih => exact .error m ih
  | tomb i ih => exact ih
  | node i k pre kids ih1 ih2 ih3 =>
    rw [Forest.ops, ← List.append_assoc pre.ops]
    exact .node k ih1 (ih2.append ih3)

end Verif.Parser
