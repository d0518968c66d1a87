import Verif.Parser.SizeGrammar
import Verif.Parser.Fragment

set_option autoImplicit false

/-!
C122: a syntax tree and its errors are in proportion to the text, whatever the text is.
-/

namespace Verif.Parser

open Kind Lexer Language

/-! ### Counting -/

mutual
/-- The nodes of a shape. -/
def shapeNodes : Shape → Nat
  | .leaf _ => 0
  | .node _ kids => shapesNodes kids + 1

def shapesNodes : List Shape → Nat
  | [] => 0
  | s :: rest => shapeNodes s + shapesNodes rest
end

theorem shapesNodes_append (a b : List Shape) : shapesNodes (a ++ b) = shapesNodes a + shapesNodes b := by
  induction a with
  | nil => simp [shapesNodes]
  | cons s a ih => simp only [List.cons_append, shapesNodes, ih]; omega

theorem green_nodes (g : Green) : shapesNodes g.shapes = g.nodeKinds.length := by
  induction g with
  | nil => rfl
  | leaf init k t ih =>
    simp only [Green.shapes, Green.nodeKinds]
    split
    · exact ih
    · rw [shapesNodes_append, ih]; rfl
  | node init k kids h1 h2 =>
    simp only [Green.shapes, Green.nodeKinds, shapesNodes_append, shapesNodes, shapeNodes, h1, h2, List.length_append,
      List.length_cons, Nat.add_zero]

theorem forest_nodes (F : Forest) : shapesNodes F.shape + F.msgs.length = F.weight := by
  induction F with
  | nil => rfl
  | tok i k ih =>
    simp only [Forest.shape, Forest.msgs, Forest.weight, ← ih]
    split
    · rfl
    · rw [shapesNodes_append]; rfl
  | err i m ih => simp only [Forest.shape, Forest.msgs, Forest.weight, ← ih, List.length_append, List.length_singleton]; omega
  | tomb i ih => exact ih
  | node i k pre kids h1 h2 h3 =>
    simp only [Forest.shape, Forest.msgs, Forest.weight, ← h1, ← h2, ← h3, shapesNodes_append, shapesNodes, shapeNodes,
      List.length_append]
    omega

/-! ### Lookups -/

/-- No run makes more lookups than the limit allows. -/
theorem used_limited {callee : (f : Fn) → TState → Out TState f.Res} {α : Type}
    (hc : ∀ f s r s', callee f s = .ok r s' → s.used ≤ stepLimit + 1 → s'.used ≤ stepLimit + 1) (p : Prog α)
    {s s' : TState} {a : α} (hr : run tokenLevel callee p s = .ok a s') (hs : s.used ≤ stepLimit + 1) :
    s'.used ≤ stepLimit + 1 := by
  induction p generalizing s with
  | pure a => cases hr; exact hs
  | panic w => cases hr
  | current κ ih => exact ih _ hr hs
  | currentText κ ih => exact ih _ hr hs
  | nth n κ ih =>
    have hr : (tNthLimited n s).bind (fun x s' => run tokenLevel callee (κ x) s') = .ok a s' := hr
    unfold tNthLimited at hr
    split at hr
    · split at hr
      · rename_i hu
        have hu' : s.used + 1 ≤ stepLimit + 1 := Nat.succ_le_succ hu
        unfold tNth at hr
        split at hr
        · exact ih _ hr hu'
        · exact ih _ hr hu'
        · exact ih _ hr hu'
        · cases hr
      · cases hr
    · cases hr
  | doBump kd κ ih => exact ih (s := { s with toks := s.toks.tail, n := s.n + 1, items := .tok s.items kd }) hr hs
  | start κ ih =>
    exact ih _ (s := { s with n := s.n + 1, items := .nil, outer := (.nil, s.items) :: s.outer }) hr hs
  | complete m kd κ ih =>
    have hr : (tComplete m kd s).bind (fun x s' => run tokenLevel callee (κ x) s') = .ok a s' := hr
    unfold tComplete at hr
    split at hr
    · exact ih _ hr hs
    · cases hr
  | abandon m κ ih =>
    have hr : (tAbandon s).bind (fun _ s' => run tokenLevel callee κ s') = .ok a s' := hr
    unfold tAbandon at hr
    split at hr
    · split at hr
      · exact ih hr hs
      · exact ih hr hs
    · cases hr
  | precede q κ ih =>
    have hr : (tPrecede s).bind (fun x s' => run tokenLevel callee (κ x) s') = .ok a s' := hr
    unfold tPrecede at hr
    split at hr
    · exact ih _ hr hs
    · cases hr
  | error msg κ ih => exact ih (s := { s with n := s.n + 1, items := .err s.items msg }) hr hs
  | call f κ ih =>
    have hr : (callee f s).bind (fun x s' => run tokenLevel callee (κ x) s') = .ok a s' := hr
    cases he : callee f s with
    | ok r s1 =>
      rw [he] at hr
      exact ih r hr (hc f s r s1 he hs)
    | panic w => rw [he] at hr; cases hr
    | outOfFuel => rw [he] at hr; cases hr

theorem callN_limited (n : Nat) (f : Fn) (s : TState) (r : f.Res) (s' : TState)
    (h : callN tokenLevel body n f s = .ok r s') (hs : s.used ≤ stepLimit + 1) : s'.used ≤ stepLimit + 1 := by
  induction n generalizing f s r s' with
  | zero => cases h
  | succ n ih => exact used_limited (fun f s r s' h hs => ih f s r s' h hs) (body f) h hs

/-- Few tokens, few lookups. -/
theorem used_few {text : Text} {ts : List (Kind × Text)} (hl : Lexes text ts) (hn : (significant ts).length ≤ 907)
    {kind : Kind} {tree : Green} {errors : List SyntaxError} (hp : parse text = .ok kind tree errors) {s : TState}
    (hr : run tokenLevel (callN tokenLevel body (maxDepth text)) root ⟨annot ts, 0, 0, .nil, []⟩ = .ok () s) :
    s.used ≤ 6 + GAIN * (annot ts).length := by
  have hlen := annot_length ts
  have hg : ¬ GetsLost ts := fun h => by
    rcases lost_panics hl h with h1 | h1 | h1 <;> (rw [h1] at hp; cases hp)
  have hk : Ck root (kind0 (annot ts)) 6 fun _ _ _ => True := by
    unfold root
    exact ck_bind (ck_start fun m => ck_bind (ck_call (Nat.le_refl _) fun _ _ _ _ =>
      ck_bind (ck_complete fun _ => ck_pure trivial)))
  have hL : 6 + GAIN * (annot ts).length ≤ stepLimit + 1 := by simp only [stepLimit]; omega
  rcases Ck.sound hL (callN_runs (maxDepth text))
    (fun f s c h1 h2 h3 => callN_fine bodies_ck hL (maxDepth text) f s c h1 h2 h3)
    (p := root) (s := ⟨annot ts, 0, 0, .nil, []⟩) hk (by simp) with h3 | h3
  · exact absurd h3 hg
  · rw [hr] at h3
    obtain ⟨c, _, h4⟩ := h3
    omega

/-! ### C122 -/

/-- **C122.**  The syntax tree of a text of `n` tokens, not counting whitespace and comments, and the list of its errors
have together at most `36 n + 55` nodes and errors, whether the text is a Move file or not. -/
theorem tree_in_proportion {text : Text} {ts : List (Kind × Text)} {kind : Kind} {tree : Green}
    {errors : List SyntaxError} (hl : Lexes text ts) (h : parse text = .ok kind tree errors) :
    tree.nodeKinds.length + errors.length ≤ 36 * (significant ts).length + 55 := by
  have hf := parse_follows hl (Nat.le_refl (maxDepth text))
  cases hr : run tokenLevel (callN tokenLevel body (maxDepth text)) root ⟨annot ts, 0, 0, .nil, []⟩ with
  | panic w =>
    rw [hr] at hf
    have hf : parse text = .panic w := hf
    rw [h] at hf
    cases hf
  | outOfFuel => rw [hr] at hf; exact absurd hf id
  | ok a s =>
    rw [hr] at hf
    obtain ⟨kids, tree', errors', hi, hp, hs, hm⟩ := hf
    rw [h] at hp
    cases hp
    have hw := root_settled hr
    have hlen := annot_length ts
    have hu := used_limited (callN_limited (maxDepth text)) root hr (Nat.zero_le _)
    have hn : tree.nodeKinds.length + errors.length = kids.weight := by
      rw [← green_nodes, hs, ← forest_nodes, ← hm, messages, List.length_map]
    simp only [Settled, TState.weight, hi, Forest.weight, stackWeight] at hw
    simp only [stepLimit] at hu
    rw [hn]
    by_cases hc : (significant ts).length ≤ 907
    · have := used_few hl hc h hr
      omega
    · omega

theorem tokens_le_bytes {ts : List (Kind × Text)} (h : ∀ x ∈ ts, x.2 ≠ []) :
    ts.length ≤ byteLen ((ts.map Prod.snd).flatten) := by
  induction ts with
  | nil => exact Nat.zero_le _
  | cons x ts ih =>
    have h1 := ih fun y hy => h y (List.mem_cons_of_mem _ hy)
    have h2 := h x List.mem_cons_self
    have h3 : 1 ≤ byteLen x.2 := by
      cases hx : x.2 with
      | nil => exact absurd hx h2
      | cons c cs => have := utf8Size_pos c; simp only [byteLen]; omega
    simp only [List.map_cons, List.flatten_cons, List.length_cons, byteLen_append]
    omega

/-- **C122.**  The same for the length of the text in bytes. -/
theorem tree_in_proportion_bytes {text : Text} {kind : Kind} {tree : Green} {errors : List SyntaxError}
    (h : parse text = .ok kind tree errors) :
    tree.nodeKinds.length + errors.length ≤ 36 * byteLen text + 55 := by
  obtain ⟨_, ts, hl, _⟩ := parse_ok h
  have h1 := tree_in_proportion hl h
  have h2 : (significant ts).length ≤ ts.length := List.length_filter_le _ _
  have h3 := tokens_le_bytes fun x hx => (Lexer.Steps.kinds hl x hx).2
  have h4 : text = (ts.map Prod.snd).flatten := by simpa using hl.text
  rw [← h4] at h3
  omega

/-- How deep the nodes of a tree are nested. -/
def Green.depth : Green → Nat
  | .nil => 0
  | .leaf init _ _ => init.depth
  | .node init _ kids => max init.depth (kids.depth + 1)

theorem depth_le_nodes (g : Green) : g.depth ≤ g.nodeKinds.length := by
  induction g with
  | nil => exact Nat.le_refl _
  | leaf init k t ih => exact ih
  | node init k kids h1 h2 =>
    simp only [Green.depth, Green.nodeKinds, List.length_append, List.length_cons]
    omega

/-- **C122.**  The nodes are not nested deeper than that either. -/
theorem tree_not_deeper {text : Text} {ts : List (Kind × Text)} {kind : Kind} {tree : Green}
    {errors : List SyntaxError} (hl : Lexes text ts) (h : parse text = .ok kind tree errors) :
    tree.depth ≤ 36 * (significant ts).length + 55 := by
  have := tree_in_proportion hl h
  have := depth_le_nodes tree
  omega

/-- A text with errors. -/
example : ((treeOf sample).map fun t => t.nodeKinds.length) = some 25 ∧ ((treeOf sample).map Green.depth) = some 11 ∧
    (errorsOf sample).map List.length = some 1 := by decide +kernel

end Verif.Parser
