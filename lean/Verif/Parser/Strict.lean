import Verif.Parser.Fragment
import Verif.Parser.Lenient

set_option autoImplicit false

/-!
Runs without errors.  A machine that stops at the first error does the same as the original one if
the latter reports none.
-/

namespace Verif.Parser

open Lexer Language

/-- The machine that stops at an error. -/
def Machine.strict {S : Type} (M : Machine S) : Machine S :=
  { M with error := fun _ _ => .panic (.assertion "error") }

theorem MachineAgree.strict {S T : Type} {R : S → T → Prop} {M : Machine S} {N : Machine T}
    (ag : MachineAgree R M N) : MachineAgree R M.strict N.strict where
  current := ag.current
  currentText := ag.currentText
  nth := ag.nth
  doBump := ag.doBump
  start := ag.start
  complete := ag.complete
  abandon := ag.abandon
  precede := ag.precede
  error _ _ _ _ := rfl

/-- The number of error messages so far. -/
def HState.errs (h : HState) : Nat :=
  h.items.errs + (h.outer.map fun s => s.pre.errs + s.items.errs).sum

/-- Errors are never forgotten, and if there is no new one, both outcomes are the same. -/
def Keeps {α : Type} (o os : Out HState α) (h : HState) : Prop :=
  ∀ a h', o = .ok a h' → h.errs ≤ h'.errs ∧ (h'.errs = h.errs → os = .ok a h')

theorem Keeps.bind {α β : Type} {o os : Out HState α} {f g : α → HState → Out HState β} {h : HState}
    (ho : Keeps o os h) (hf : ∀ a h1, Keeps (f a h1) (g a h1) h1) :
    Keeps (o.bind f) (os.bind g) h := by
  intro b h' he
  cases o with
  | ok a h1 =>
    obtain ⟨l1, e1⟩ := ho a h1 rfl
    obtain ⟨l2, e2⟩ := hf a h1 b h' he
    refine ⟨Nat.le_trans l1 l2, fun e => ?_⟩
    rw [e1 (by omega)]
    exact e2 (by omega)
  | panic w => cases he
  | outOfFuel => cases he

theorem Keeps.same {α : Type} {o : Out HState α} {h : HState}
    (ho : ∀ a h', o = .ok a h' → h'.errs = h.errs) : Keeps o o h :=
  fun a h' he => ⟨Nat.le_of_eq (ho a h' he).symm, fun _ => he⟩

theorem errs_append (a b : Forest) : (a.append b).errs = a.errs + b.errs := by
  induction b with
  | nil => rfl
  | tok i k ih => exact ih
  | err i m ih => simp only [Forest.append, Forest.errs, ih]; omega
  | tomb i ih => exact ih
  | node i k pre kids ih => simp only [Forest.append, Forest.errs, ih]; omega

theorem run_keeps {c cs : (f : Fn) → HState → Out HState f.Res}
    (hc : ∀ f h, Keeps (c f h) (cs f h) h) {α : Type} (p : Prog α) (h : HState) :
    Keeps (run highLevel c p h) (run highLevel.strict cs p h) h := by
  induction p generalizing h with
  | pure a => exact .same fun _ _ e => by cases e; rfl
  | panic w => exact .same fun _ _ e => by cases e
  | current k ih => exact ih _ h
  | currentText k ih =>
    refine Keeps.bind (o := highLevel.currentText h) (.same fun a h' e => ?_) fun b h => ih b h
    simp only [highLevel] at e
    split at e <;> cases e
    rfl
  | nth n k ih =>
    refine Keeps.bind (o := hNth n h) (.same fun a h' e => ?_) fun b h => ih b h
    unfold hNth at e
    split at e
    · split at e
      · split at e
        · split at e <;> cases e
          rfl
        · cases e
      · cases e
    · cases e
  | doBump kind k ih =>
    refine Keeps.bind (o := hDoBump kind h) (.same fun a h' e => ?_) fun _ h => ih h
    unfold hDoBump at e
    split at e <;> cases e
    rfl
  | start k ih =>
    refine Keeps.bind (o := highLevel.start h) (.same fun a h' e => ?_) fun b h => ih b h
    cases e
    simp only [HState.errs, Forest.errs, List.map_cons, List.sum_cons]
    omega
  | complete m kind k ih =>
    refine Keeps.bind (o := hComplete m kind h) (.same fun a h' e => ?_) fun b h => ih b h
    unfold hComplete at e
    split at e
    · rename_i s rest ho
      split at e <;> cases e
      simp only [HState.errs, Forest.errs, ho, List.map_cons, List.sum_cons]
      omega
    · cases e
  | abandon m k ih =>
    refine Keeps.bind (o := hAbandon m h) (.same fun a h' e => ?_) fun _ h => ih h
    unfold hAbandon at e
    split at e
    · rename_i s rest ho
      split at e
      · rename_i hm
        split at e
        · rename_i hi
          cases e
          simp only [HState.errs, Forest.errs, ho, List.map_cons, List.sum_cons, hm.2, hi]
          omega
        · cases e
          simp only [HState.errs, Forest.errs, ho, List.map_cons, List.sum_cons, hm.2, errs_append]
          omega
      · cases e
    · cases e
  | precede c k ih =>
    refine Keeps.bind (o := hPrecede c h) (.same fun a h' e => ?_) fun b h => ih b h
    unfold hPrecede at e
    split at e
    · rename_i hi
      split at e <;> cases e
      simp only [HState.errs, Forest.errs, hi, List.map_cons, List.sum_cons]
      omega
    · cases e
  | error msg k ih =>
    refine Keeps.bind (o := highLevel.error msg h) ?_ fun _ h => ih h
    intro a h' e
    cases e
    simp only [HState.errs, Forest.errs]
    exact ⟨by omega, fun e => by omega⟩
  | call f k ih => exact (hc f h).bind fun b h => ih b h

theorem callN_keeps (n : Nat) (f : Fn) (h : HState) :
    Keeps (callN highLevel body n f h) (callN highLevel.strict body n f h) h := by
  induction n generalizing f h with
  | zero => intro a h' e; cases e
  | succ n ih => exact run_keeps ih (body f) h

/-- What succeeds with the limit on lookups succeeds without it. -/
def Out.Le {S α : Type} (o o' : Out S α) : Prop := ∀ a s, o = .ok a s → o' = .ok a s

theorem Out.Le.bind {S α β : Type} {o o' : Out S α} {f g : α → S → Out S β} (h : o.Le o')
    (hf : ∀ a s, (f a s).Le (g a s)) : (o.bind f).Le (o'.bind g) := by
  intro b s' he
  cases o with
  | ok a s => rw [h a s rfl]; exact hf a s b s' he
  | panic w => cases he
  | outOfFuel => cases he

theorem run_le {c c' : (f : Fn) → TState → Out TState f.Res} (hc : ∀ f s, (c f s).Le (c' f s))
    {α : Type} (p : Prog α) (s : TState) :
    (run tokenLevel.strict c p s).Le (run tokenFree.strict c' p s) := by
  induction p generalizing s with
  | pure a => exact fun _ _ e => e
  | panic w => exact fun _ _ e => e
  | current k ih => exact ih _ s
  | currentText k ih => exact Out.Le.bind (fun _ _ e => e) fun b s => ih b s
  | nth n k ih =>
    refine Out.Le.bind (o := tNthLimited n s) (o' := tNth n s) (fun a s' e => ?_) fun b s => ih b s
    unfold tNthLimited at e
    split at e
    · split at e
      · exact e
      · cases e
    · cases e
  | doBump kind k ih => exact Out.Le.bind (fun _ _ e => e) fun _ s => ih s
  | start k ih => exact Out.Le.bind (fun _ _ e => e) fun b s => ih b s
  | complete m kind k ih => exact Out.Le.bind (fun _ _ e => e) fun b s => ih b s
  | abandon m k ih => exact Out.Le.bind (fun _ _ e => e) fun _ s => ih s
  | precede c k ih => exact Out.Le.bind (fun _ _ e => e) fun b s => ih b s
  | error msg k ih => exact Out.Le.bind (fun _ _ e => e) fun _ s => ih s
  | call f k ih => exact Out.Le.bind (hc f s) fun b s => ih b s

theorem callN_le (n : Nat) (f : Fn) (s : TState) :
    (callN tokenLevel.strict body n f s).Le (callN tokenFree.strict body n f s) := by
  induction n generalizing f s with
  | zero => exact fun _ _ e => by cases e
  | succ n ih => exact run_le ih (body f) s

theorem msgs_length (F : Forest) : F.msgs.length = F.errs := by
  induction F with
  | nil => rfl
  | tok i k ih => exact ih
  | err i m ih => simp only [Forest.msgs, Forest.errs, List.length_append, ih]; rfl
  | tomb i ih => exact ih
  | node i k pre kids h1 h2 h3 => simp only [Forest.msgs, Forest.errs, List.length_append, h1, h2, h3]

/-- A text parsed without errors is read by the machine on tokens that stops at errors. -/
theorem clean_run {text : Text} {kind : Kind} {tree : Green} {ts : List (Kind × Text)} (hl : Lexes text ts)
    (hp : parse text = .ok kind tree []) :
    ∃ n w u m kids, run tokenFree.strict (callN tokenFree.strict body n) root ⟨annot ts, 0, 0, .nil, []⟩
        = .ok () ⟨w, u, m, .node .nil .SOURCE_FILE .nil kids, []⟩ ∧
      kind0 w = .EOF ∧ tree.shapes = kids.shape := by
  obtain ⟨lx, hnew, hst⟩ := Stands.new hl
  have hg := root_good hnew (maxDepth text) (Nat.le_refl _)
  have he := run_erases (M := highLevel) (cb := callB highLevel body (maxDepth text))
    (c := callN highLevel body (maxDepth text))
    (fun f s => callB_erases highLevel body (maxDepth text) (maxDepth text) (Nat.le_refl _) f s) root
    (HState.initial lx, maxDepth text)
  have hlow := highLevel_agree.run (callN_agree highLevel_agree body (maxDepth text)) root (HState.initial lx)
    (PState.initial lx) ⟨rfl, rfl, rfl, rfl, trivial, trivial⟩
  generalize run (budgeted highLevel) (callB highLevel body (maxDepth text)) root
    (HState.initial lx, maxDepth text) = ob at hg he
  rcases he with rfl | he
  · exact absurd hg id
  · simp only at he
    rw [he] at hlow
    cases ob with
    | ok a s =>
      obtain ⟨h, b⟩ := s
      obtain ⟨l, e3, rep⟩ := hlow
      have fin : Finished text h := hg
      obtain ⟨kids, hi⟩ := fin.tree
      obtain ⟨ops, sink, tree', errors, ts', h1, h2, h3, h4, h5, h6⟩ := build_tree fin rep
      have hev : l.events = (Forest.node .nil .SOURCE_FILE .nil kids).ev none := by
        rw [rep.events, fin.outer, hi]; rfl
      have hwf : (Forest.node .nil .SOURCE_FILE .nil kids).Wf := by
        have := rep.wf
        rwa [hi] at this
      rw [hev, process_forest _ hwf] at h1
      cases h1
      obtain ⟨hs, hm⟩ := build_shapes h3 h4
      have e4 : parseEvents (maxDepth text) text = .ok () l := by
        unfold parseEvents
        rw [hnew]
        exact e3
      have e5 : parse text = .ok .SOURCE_FILE tree' errors := by
        unfold parse parseWithDepth
        rw [e4]
        simp only [hev, process_forest _ hwf, h3, h4]
        rfl
      rw [e5] at hp
      cases hp
      have herr : kids.errs = 0 := by
        rw [← msgs_length, ← hm]; rfl
      have hk := (run_keeps (callN_keeps (maxDepth text)) root (HState.initial lx) () h he).2 (by
        simp only [HState.errs, HState.initial, hi, fin.outer, Forest.errs, herr, List.map_nil])
      have ha := tokenLevel_agree.strict.run (callN_agree tokenLevel_agree.strict body (maxDepth text)) root
        (HState.initial lx) ⟨annot ts, 0, 0, .nil, []⟩ ⟨⟨ts, hst, rfl⟩, rfl, rfl, rfl, rfl⟩
      rw [hk] at ha
      obtain ⟨⟨w, u, m, i, o⟩, e6, tr⟩ := ha
      have hi' : i = .node .nil .SOURCE_FILE .nil kids := by rw [← hi]; exact tr.items
      have ho : o = [] := by
        have := tr.outer
        rw [fin.outer] at this
        exact this
      subst hi' ho
      refine ⟨maxDepth text, w, u, m, kids, run_le (callN_le _) root _ _ _ e6, ?_, hs⟩
      obtain ⟨us, hus, hw⟩ := tr.toks
      have hw' : w = annot us := hw
      rw [hw', kind0_annot, ← hus.kind]
      exact fin.eof
    | panic w =>
      have e3 : run lowLevel (callN lowLevel body (maxDepth text)) root (PState.initial lx) = .panic w := by
        rcases hg with rfl | rfl | rfl <;> exact hlow
      unfold parse parseWithDepth parseEvents at hp
      rw [hnew] at hp
      simp only [PState.initial] at e3
      simp only [e3] at hp
      cases hp
    | outOfFuel => exact absurd hg id

end Verif.Parser
