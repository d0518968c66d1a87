import Verif.Parser.Root

set_option autoImplicit false

/-!
`event::process` undoes the flattening: replaying the events of a finished forest makes the calls
of a walk over the forest.
-/

namespace Verif.Parser

namespace Forest

/-- The walk over a forest as calls on the sink. -/
def ops : Forest → List Op
  | nil => []
  | tok i k => i.ops ++ [.token k 1]
  | err i m => i.ops ++ [.error m]
  | tomb i => i.ops
  | node i k pre kids => i.ops ++ (.startNode k :: (pre.ops ++ (kids.ops ++ [.finishNode])))

/-- The last node and the nodes it precedes, from the inside out, with their own children. -/
def spine : Forest → List (Kind × Forest)
  | node _ k pre kids => pre.spine ++ [(k, kids)]
  | _ => []

end Forest

/-- The events of a chain of nodes, each the forward parent of the one before; `fp` is the forward
parent of the last. -/
def chainEv (fp : Option Nat) : List (Kind × Forest) → List Event
  | [] => []
  | (k, kids) :: rest =>
    .start k (if rest = [] then fp else some (kids.len + 2)) ::
      (kids.ev none ++ (.finish :: chainEv fp rest))

/-- The events of a chain whose starts have been used up. -/
def tombChain : List (Kind × Forest) → List Event
  | [] => []
  | (_, kids) :: rest => .tombstone :: (kids.ev none ++ (.finish :: tombChain rest))

def chainLen : List (Kind × Forest) → Nat
  | [] => 0
  | (_, kids) :: rest => kids.len + 2 + chainLen rest

/-- The calls for a chain without the starts. -/
def tailOps : List (Kind × Forest) → List Op
  | [] => []
  | (_, kids) :: rest => kids.ops ++ (.finishNode :: tailOps rest)

theorem chainEv_snoc (fp : Option Nat) (L : List (Kind × Forest)) (p : Kind × Forest) (k : Kind)
    (kids : Forest) :
    chainEv fp (L ++ [p] ++ [(k, kids)]) =
      chainEv (some (p.2.len + 2)) (L ++ [p]) ++ (.start k fp :: (kids.ev none ++ [.finish])) := by
  induction L with
  | nil => obtain ⟨a, b⟩ := p; simp [chainEv]
  | cons x L ih =>
    obtain ⟨a, b⟩ := x
    simp only [List.cons_append, chainEv] at ih ⊢
    rw [ih]
    simp

theorem ev_single (fp : Option Nat) (F : Forest) (hs : F.Single) (hw : F.Wf) :
    F.ev fp = chainEv fp F.spine := by
  induction F generalizing fp with
  | nil => rfl
  | tok i k => exact absurd hs id
  | err i m => exact absurd hs id
  | tomb i => exact absurd hs id
  | node i k pre kids ih1 ih2 ih3 =>
    cases i with
    | nil =>
      obtain ⟨_, _, hps, hpw, _⟩ := hw
      simp only [Forest.ev, Forest.spine, List.nil_append]
      rw [ih2 _ hps hpw]
      cases pre with
      | nil => simp [Forest.spine, chainEv]
      | tok i k => exact absurd hps id
      | err i m => exact absurd hps id
      | tomb i => exact absurd hps id
      | node i' k' pre' kids' =>
        simp only [Forest.spine, Forest.span]
        rw [chainEv_snoc]
    | _ => exact absurd hs id

theorem ev_node (i : Forest) (k : Kind) (pre kids : Forest) (hw : (Forest.node i k pre kids).Wf) :
    (Forest.node i k pre kids).ev none = i.ev none ++ chainEv none (Forest.node i k pre kids).spine := by
  have h := ev_single none (.node .nil k pre kids) trivial ⟨trivial, hw.2⟩
  simp only [Forest.ev, List.nil_append] at h
  simp only [Forest.ev, h]
  rfl

theorem chainEv_length (fp : Option Nat) (L : List (Kind × Forest)) :
    (chainEv fp L).length = chainLen L := by
  induction L with
  | nil => rfl
  | cons x L ih =>
    obtain ⟨a, b⟩ := x
    simp only [chainEv, chainLen, List.length_cons, List.length_append, ih, Forest.ev_length]
    omega

/-- The loop over the forward parents finds the starts of the chain. -/
theorem follow_chain (L : List (Kind × Forest)) (hk : ∀ x ∈ L, x.1 ≠ .TOMBSTONE) (A R : List Event)
    (e : Event) (kids : Forest) (fuel : Nat) (hf : L.length ≤ fuel) :
    follow fuel (A ++ (e :: (kids.ev none ++ (.finish :: (chainEv none L ++ R))))) A.length
      (if L = [] then none else some (kids.len + 2)) =
    some (L.map Prod.fst, A ++ (e :: (kids.ev none ++ (.finish :: (tombChain L ++ R))))) := by
  induction L generalizing A e kids fuel with
  | nil => cases fuel <;> simp [follow, chainEv, tombChain]
  | cons x L ih =>
    obtain ⟨k, kids2⟩ := x
    cases fuel with
    | zero => simp at hf
    | succ fuel =>
      simp only [List.cons_ne_nil, ↓reduceIte, follow]
      have hsplit : A ++ (e :: (kids.ev none ++ (.finish :: (chainEv none ((k, kids2) :: L) ++ R)))) =
          (A ++ (e :: (kids.ev none ++ [.finish]))) ++
            (.start k (if L = [] then none else some (kids2.len + 2)) ::
              (kids2.ev none ++ (.finish :: (chainEv none L ++ R)))) := by
        simp [chainEv]
      have hlen : A.length + (kids.len + 2) = (A ++ (e :: (kids.ev none ++ [.finish]))).length := by
        simp only [List.length_append, List.length_cons, Forest.ev_length, List.length_nil]
      rw [hsplit, hlen]
      rw [List.getElem?_append_right (Nat.le_refl _)]
      simp only [Nat.sub_self, List.getElem?_cons_zero]
      rw [List.set_append_right _ _ (Nat.le_refl _)]
      simp only [Nat.sub_self, List.set_cons_zero]
      rw [ih (fun x hx => hk x (List.mem_cons_of_mem _ hx)) _ _ _ _ (by simp at hf; omega)]
      have : k ≠ .TOMBSTONE := hk (k, kids2) (List.mem_cons_self ..)
      simp [this, tombChain]

/-- Replaying `evs` makes the calls `os`, whatever comes after. -/
def Emits (evs : List Event) (os : List Op) : Prop :=
  ∀ n rest, processN (n + evs.length) (evs ++ rest) = (processN n rest).map (os ++ ·)

theorem Emits.nil : Emits [] [] := by
  intro n rest
  simp only [List.length_nil, Nat.add_zero, List.nil_append]
  cases processN n rest <;> rfl

theorem Emits.append {a b : List Event} {oa ob : List Op} (ha : Emits a oa) (hb : Emits b ob) :
    Emits (a ++ b) (oa ++ ob) := by
  intro n rest
  have h1 := ha (n + b.length) (b ++ rest)
  have h2 := hb n rest
  rw [h2] at h1
  rw [List.length_append, show n + (a.length + b.length) = n + b.length + a.length by omega,
    List.append_assoc, h1]
  cases processN n rest <;> simp

theorem Emits.token (k : Kind) : Emits [.token k 1] [.token k 1] := fun _ _ => rfl
theorem Emits.error (m : String) : Emits [.error m] [.error m] := fun _ _ => rfl
theorem Emits.finish : Emits [.finish] [.finishNode] := fun _ _ => rfl
theorem Emits.tombstone : Emits [.tombstone] [] := by
  intro n rest
  show processN n rest = _
  cases processN n rest <;> rfl

theorem tombChain_emits (L : List (Kind × Forest)) (h : ∀ x ∈ L, Emits (x.2.ev none) x.2.ops) :
    Emits (tombChain L) (tailOps L) := by
  induction L with
  | nil => exact .nil
  | cons x L ih =>
    obtain ⟨k, kids⟩ := x
    have h1 : Emits (kids.ev none) kids.ops := h (k, kids) (List.mem_cons_self ..)
    have h2 := ih fun x hx => h x (List.mem_cons_of_mem _ hx)
    exact Emits.tombstone.append (h1.append (Emits.finish.append h2))

theorem tombChain_length (L : List (Kind × Forest)) : (tombChain L).length = chainLen L := by
  induction L with
  | nil => rfl
  | cons x L ih =>
    obtain ⟨a, b⟩ := x
    simp only [tombChain, chainLen, List.length_cons, List.length_append, ih, Forest.ev_length]
    omega

theorem length_le_chainLen (L : List (Kind × Forest)) : L.length ≤ chainLen L := by
  induction L with
  | nil => exact Nat.le_refl _
  | cons x L ih =>
    obtain ⟨a, b⟩ := x
    simp only [chainLen, List.length_cons]
    omega

theorem chain_emits (L : List (Kind × Forest)) (hk : ∀ x ∈ L, x.1 ≠ .TOMBSTONE)
    (h : ∀ x ∈ L, Emits (x.2.ev none) x.2.ops) :
    Emits (chainEv none L) ((L.map Prod.fst).reverse.map Op.startNode ++ tailOps L) := by
  cases L with
  | nil => exact .nil
  | cons x L =>
    obtain ⟨k, kids⟩ := x
    intro n rest
    have hk1 : k ≠ .TOMBSTONE := hk (k, kids) (List.mem_cons_self ..)
    have hf := follow_chain L (fun x hx => hk x (List.mem_cons_of_mem _ hx)) [] rest .tombstone kids
      ((chainEv none ((k, kids) :: L) ++ rest).length + 1) (by
        have := length_le_chainLen L
        rw [List.length_append, chainEv_length]
        simp only [chainLen]
        omega)
    have ht := tombChain_emits ((k, kids) :: L) h n rest
    simp only [List.nil_append, List.length_nil] at hf
    have hlen : (chainEv none ((k, kids) :: L)).length
        = (kids.ev none ++ (.finish :: tombChain L)).length + 1 := by
      rw [chainEv_length, List.length_append, List.length_cons, tombChain_length, Forest.ev_length]
      simp only [chainLen]
      omega
    have hlen2 : (tombChain ((k, kids) :: L)).length
        = (kids.ev none ++ (.finish :: tombChain L)).length + 1 := rfl
    rw [hlen2] at ht
    rw [hlen]
    have ht' : processN (n + (kids.ev none ++ (.finish :: tombChain L)).length)
        ((kids.ev none ++ (.finish :: tombChain L)) ++ rest)
        = (processN n rest).map (tailOps ((k, kids) :: L) ++ ·) := ht
    show processN (n + (kids.ev none ++ (.finish :: tombChain L)).length + 1) _ = _
    have hevs : chainEv none ((k, kids) :: L) ++ rest =
        .start k (if L = [] then none else some (kids.len + 2)) ::
          (kids.ev none ++ (.finish :: (chainEv none L ++ rest))) := by
      simp [chainEv]
    rw [hevs] at hf ⊢
    simp only [processN, if_neg hk1, hf]
    have htail : (kids.ev none ++ (.finish :: tombChain L)) ++ rest =
        kids.ev none ++ (.finish :: (tombChain L ++ rest)) := by simp
    rw [List.tail_cons, ← htail, ht']
    cases processN n rest <;> simp

theorem ops_single (F : Forest) (hs : F.Single) (hw : F.Wf) :
    F.ops = (F.spine.map Prod.fst).reverse.map Op.startNode ++ tailOps F.spine := by
  have tail_append : ∀ (L : List (Kind × Forest)) (k : Kind) (kids : Forest),
      tailOps (L ++ [(k, kids)]) = tailOps L ++ (kids.ops ++ [.finishNode]) := by
    intro L k kids
    induction L with
    | nil => simp [tailOps]
    | cons x L ih =>
      obtain ⟨a, b⟩ := x
      simp only [List.cons_append, tailOps, ih]
      simp
  induction F with
  | nil => rfl
  | tok i k => exact absurd hs id
  | err i m => exact absurd hs id
  | tomb i => exact absurd hs id
  | node i k pre kids ih1 ih2 ih3 =>
    cases i with
    | nil =>
      obtain ⟨_, _, hps, hpw, _⟩ := hw
      simp only [Forest.ops, Forest.spine, List.nil_append]
      rw [ih2 hps hpw, tail_append]
      simp
    | _ => exact absurd hs id

theorem spine_kinds (F : Forest) (hw : F.Wf) : ∀ x ∈ F.spine, x.1 ≠ .TOMBSTONE := by
  induction F with
  | node i k pre kids ih1 ih2 ih3 =>
    intro x hx
    rw [Forest.spine, List.mem_append, List.mem_singleton] at hx
    rcases hx with hx | rfl
    · exact ih2 hw.2.2.2.1 x hx
    · exact isNodeKind_ne hw.2.1
  | _ => intro x hx; cases hx

/-- Replaying the events of a well-formed forest is the walk over it. -/
theorem forest_emits (F : Forest) (hw : F.Wf) :
    Emits (F.ev none) F.ops ∧ ∀ x ∈ F.spine, Emits (x.2.ev none) x.2.ops := by
  induction F with
  | nil => exact ⟨.nil, fun x hx => by cases hx⟩
  | tok i k ih => exact ⟨(ih hw).1.append (.token k), fun x hx => by cases hx⟩
  | err i m ih => exact ⟨(ih hw).1.append (.error m), fun x hx => by cases hx⟩
  | tomb i ih =>
    refine ⟨?_, fun x hx => by cases hx⟩
    have := (ih hw).1.append .tombstone
    rw [List.append_nil] at this
    exact this
  | node i k pre kids ih1 ih2 ih3 =>
    have hsp : ∀ x ∈ (Forest.node i k pre kids).spine, Emits (x.2.ev none) x.2.ops := by
      intro x hx
      rw [Forest.spine, List.mem_append, List.mem_singleton] at hx
      rcases hx with hx | rfl
      · exact (ih2 hw.2.2.2.1).2 x hx
      · exact (ih3 hw.2.2.2.2).1
    refine ⟨?_, hsp⟩
    rw [ev_node i k pre kids hw]
    have hops : (Forest.node i k pre kids).ops = i.ops ++
        (((Forest.node i k pre kids).spine.map Prod.fst).reverse.map Op.startNode ++
          tailOps (Forest.node i k pre kids).spine) := by
      have h := ops_single (.node .nil k pre kids) trivial ⟨trivial, hw.2⟩
      simp only [Forest.ops, List.nil_append] at h
      simp only [Forest.ops, h]
      rfl
    rw [hops]
    exact (ih1 hw.1).1.append (chain_emits _ (spine_kinds _ hw) hsp)

theorem process_forest (F : Forest) (hw : F.Wf) : process (F.ev none) = some F.ops := by
  have h := (forest_emits F hw).1 0 []
  simp only [Nat.zero_add, List.append_nil] at h
  unfold process
  rw [h]
  simp [processN]

end Verif.Parser
