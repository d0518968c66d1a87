import Verif.Diagnostics.Model

/-! Property C22: change notifications of the diagnostics collection. -/

namespace Verif.Diagnostics

/-! ## Specification -/

/-- A client's copy of all diagnostics: at every drain it fetches the diagnostics of exactly
the reported files. -/
def clientStep (s : Collection × (Nat → List Diagnostic)) (op : Op) :
    Collection × (Nat → List Diagnostic) :=
  let c' := s.1.step op
  match op with
  | .drain =>
    match s.1.takeChanges.2 with
    | none => (c', s.2)
    | some files => (c', fun f => if f ∈ files then c'.diagnosticsFor f else s.2 f)
  | _ => (c', s.2)

/-- The collection and the client's copy after a history; at first both are empty. -/
def clientRun (ops : List Op) : Collection × (Nat → List Diagnostic) :=
  ops.foldl clientStep (Collection.empty, fun _ => [])

/-- The native diagnostics last given for a file. -/
def lastNativeFrom (init : List Diagnostic) (f : Nat) : List Op → List Diagnostic
  | [] => init
  | .setNative g ds :: ops => lastNativeFrom (if g = f then ds else init) f ops
  | _ :: ops => lastNativeFrom init f ops

/-- The check diagnostics given for a file since the last clear. -/
def addedFrom (init : List Diagnostic) (f : Nat) : List Op → List Diagnostic
  | [] => init
  | .addCheck g d _ :: ops => addedFrom (if g = f then init ++ [d] else init) f ops
  | .clearCheck :: ops => addedFrom [] f ops
  | _ :: ops => addedFrom init f ops

/-- What a user sees of a diagnostic. -/
def visible (d : Diagnostic) : Option String × Option Nat × Edits.Range × List Char :=
  (d.source, d.severity, d.range, d.message)

/-- `firsts [] l`: of the diagnostics that look alike only the first is kept. -/
def firsts : List Diagnostic → List Diagnostic → List Diagnostic
  | kept, [] => kept
  | kept, d :: ds => if visible d ∈ kept.map visible then firsts kept ds else firsts (kept ++ [d]) ds

/-! ## Lemmas -/

theorem equal_iff (l r : Diagnostic) : areDiagnosticsEqual l r = true ↔ visible l = visible r := by
  simp [areDiagnosticsEqual, visible, and_assoc]

theorem mem_insertSet {s : List Nat} {f g : Nat} : g ∈ insertSet s f ↔ g = f ∨ g ∈ s := by
  unfold insertSet
  split
  · rename_i h
    constructor
    · exact Or.inr
    · rintro (rfl | h') <;> assumption
  · simp only [List.mem_append, List.mem_singleton]; exact Or.comm

theorem mem_foldl_insertSet {l s : List Nat} {g : Nat} : g ∈ l.foldl insertSet s ↔ g ∈ l ∨ g ∈ s := by
  induction l generalizing s with
  | nil => simp
  | cons a l ih => rw [List.foldl_cons, ih, mem_insertSet, List.mem_cons]; grind

theorem same_iff (new existing : List Diagnostic) :
    sameDiagnostics new existing = true ↔ new.map visible = existing.map visible := by
  unfold sameDiagnostics
  induction new generalizing existing with
  | nil => cases existing <;> simp
  | cons a as ih =>
    cases existing with
    | nil => simp
    | cons b bs =>
      have := ih bs
      simp only [Bool.and_eq_true, beq_iff_eq, List.length_cons, Nat.add_right_cancel_iff, List.zip_cons_cons,
        List.all_cons, equal_iff, List.map_cons, List.cons.injEq] at this ⊢
      grind

/-- A call leaves the diagnostics of every unreported file as they were. -/
theorem step_keeps (c : Collection) (op : Op) (h : ∀ o, o = op → o ≠ .drain) (f : Nat) :
    (f ∈ c.changes → f ∈ (c.step op).changes) ∧
    (f ∉ (c.step op).changes → (c.step op).diagnosticsFor f = c.diagnosticsFor f) := by
  cases op with
  | drain => exact absurd rfl (h _ rfl)
  | clearCheck =>
    simp only [Collection.step, Collection.clearCheck, mem_foldl_insertSet, Collection.diagnosticsFor]
    refine ⟨Or.inr, fun hn => ?_⟩
    have : c.check.get f = none := (AMap.get_eq_none _ _).2 (fun hk => hn (Or.inl hk))
    simp [this, AMap.get]
  | addCheck g d fixes =>
    simp only [Collection.step, Collection.addCheckDiagnostic]
    split
    · exact ⟨id, fun _ => rfl⟩
    · simp only [mem_insertSet, Collection.diagnosticsFor, AMap.get_insert]
      refine ⟨Or.inr, fun hn => ?_⟩
      have : g ≠ f := fun he => hn (Or.inl he.symm)
      simp [this]
  | setNative g ds =>
    simp only [Collection.step, Collection.setNativeDiagnostics]
    have upd : (f ∈ c.changes → f ∈ insertSet c.changes g) ∧
      (f ∉ insertSet c.changes g →
        Collection.diagnosticsFor { c with native := c.native.insert g ds, changes := insertSet c.changes g } f =
          c.diagnosticsFor f) := by
      simp only [mem_insertSet, Collection.diagnosticsFor, AMap.get_insert]
      refine ⟨Or.inr, fun hn => ?_⟩
      have : g ≠ f := fun he => hn (Or.inl he.symm)
      simp [this]
    split
    · split
      · exact ⟨id, fun _ => rfl⟩
      · exact upd
    · exact upd

/-- At any moment the client's copy is right for every file that is not reported as changed. -/
theorem copy_right_unless_reported (ops : List Op) (f : Nat) (hf : f ∉ (clientRun ops).1.changes) :
    (clientRun ops).2 f = (clientRun ops).1.diagnosticsFor f := by
  suffices ∀ (ops : List Op) (s : Collection × (Nat → List Diagnostic)),
      (∀ f, f ∉ s.1.changes → s.2 f = s.1.diagnosticsFor f) →
      ∀ f, f ∉ (ops.foldl clientStep s).1.changes →
        (ops.foldl clientStep s).2 f = (ops.foldl clientStep s).1.diagnosticsFor f from
    this ops _ (fun _ _ => rfl) f hf
  intro ops
  induction ops with
  | nil => intro s h; exact h
  | cons op ops ih =>
    intro s h
    rw [List.foldl_cons]
    apply ih
    intro f hf
    by_cases hd : op = .drain
    · subst hd
      simp only [clientStep, Collection.step, Collection.takeChanges] at hf ⊢
      by_cases he : s.1.changes.isEmpty = true
      · simp only [he, if_true] at hf ⊢; exact h f hf
      · simp only [he, Bool.false_eq_true, if_false] at hf ⊢
        by_cases hm : f ∈ s.1.changes
        · simp [hm]
        · simp only [hm, if_false]; exact h f hm
    · have key := step_keeps s.1 op (fun o ho => ho ▸ hd) f
      have e1 : (clientStep s op).1 = s.1.step op ∧ (clientStep s op).2 = s.2 := by
        cases op <;> first | exact absurd rfl hd | exact ⟨rfl, rfl⟩
      rw [e1.1] at hf ⊢
      rw [e1.2]
      rw [key.2 hf]
      exact h f (fun hm => hf (key.1 hm))

/-! ## C22 -/

/-- C22: after every drain the client's copy equals the stored diagnostics of every file. -/
theorem client_copy_is_exact (ops : List Op) (f : Nat) :
    (clientRun (ops ++ [.drain])).2 f = (clientRun (ops ++ [.drain])).1.diagnosticsFor f := by
  apply copy_right_unless_reported
  simp only [clientRun, List.foldl_append, List.foldl_cons, List.foldl_nil]
  generalize List.foldl clientStep _ ops = s
  simp only [clientStep, Collection.step, Collection.takeChanges]
  by_cases he : s.1.changes.isEmpty = true
  · simp only [he, if_true]
    rw [List.isEmpty_iff.1 he]; simp
  · simp [he]

/-- C22: what is stored for a file is, as far as a user sees, the native diagnostics last given
for it followed by the check diagnostics given since the last clear, without repetitions. -/
theorem stored_diagnostics_spec (ops : List Op) (f : Nat) :
    ((clientRun ops).1.diagnosticsFor f).map visible =
      (lastNativeFrom [] f ops).map visible ++ (firsts [] (addedFrom [] f ops)).map visible := by
  suffices ∀ (ops : List Op) (s : Collection × (Nat → List Diagnostic)) (n a : List Diagnostic),
      ((s.1.native.get f).getD []).map visible = n.map visible →
      (s.1.check.get f).getD [] = firsts [] a →
      ((ops.foldl clientStep s).1.diagnosticsFor f).map visible =
        (lastNativeFrom n f ops).map visible ++ (firsts [] (addedFrom a f ops)).map visible from
    this ops _ [] [] rfl rfl
  intro ops
  induction ops with
  | nil =>
    intro s n a h1 h2
    simp only [List.foldl_nil, Collection.diagnosticsFor, List.map_append, h1, h2, lastNativeFrom, addedFrom]
  | cons op ops ih =>
    intro s n a h1 h2
    rw [List.foldl_cons]
    have snoc : ∀ (a kept : List Diagnostic) (d : Diagnostic), firsts kept (a ++ [d]) =
        if visible d ∈ (firsts kept a).map visible then firsts kept a else firsts kept a ++ [d] := by
      intro a
      induction a with
      | nil => intro kept d; simp [firsts]
      | cons x xs ih2 =>
        intro kept d
        simp only [List.cons_append, firsts]
        split <;> rw [ih2]
    cases op with
    | drain =>
      have e : (clientStep s .drain).1.native = s.1.native ∧ (clientStep s .drain).1.check = s.1.check := by
        simp only [clientStep, Collection.step, Collection.takeChanges]
        by_cases he : s.1.changes.isEmpty = true <;> simp [he]
      exact ih _ n a (by rw [e.1]; exact h1) (by rw [e.2]; exact h2)
    | clearCheck => exact ih _ n [] h1 rfl
    | addCheck g d fixes =>
      refine ih _ n (if g = f then a ++ [d] else a) ?_ ?_
      · simp only [clientStep, Collection.step, Collection.addCheckDiagnostic]
        split <;> exact h1
      · simp only [clientStep, Collection.step, Collection.addCheckDiagnostic]
        by_cases hg : g = f
        · subst hg
          simp only [if_true, snoc, h2]
          by_cases hx : visible d ∈ (firsts [] a).map visible
          · have : (firsts [] a).any (fun e => areDiagnosticsEqual e d) = true := by
              obtain ⟨e, he, hv⟩ := List.mem_map.1 hx
              exact List.any_eq_true.2 ⟨e, he, (equal_iff _ _).2 hv⟩
            simp only [this, if_true, hx, h2]
          · have : ¬ (firsts [] a).any (fun e => areDiagnosticsEqual e d) = true := by
              intro hc
              obtain ⟨e, he, hv⟩ := List.any_eq_true.1 hc
              exact hx (List.mem_map.2 ⟨e, he, (equal_iff _ _).1 hv⟩)
            simp only [this, hx, Bool.false_eq_true, if_false, AMap.get_insert, if_true, Option.getD_some]
        · simp only [hg, if_false]
          split
          · exact h2
          · simp only [AMap.get_insert, hg, if_false]; exact h2
    | setNative g ds =>
      refine ih _ (if g = f then ds else n) a ?_ ?_
      · simp only [clientStep, Collection.step, Collection.setNativeDiagnostics]
        by_cases hg : g = f
        · subst hg
          simp only [if_true]
          cases he : s.1.native.get g with
          | none => simp [AMap.get_insert]
          | some ex =>
            simp only
            by_cases hs : sameDiagnostics ds ex = true
            · simp only [hs, if_true, he, Option.getD_some]; exact ((same_iff _ _).1 hs).symm
            · simp [hs, AMap.get_insert]
        · simp only [hg, if_false]
          split
          · split
            · exact h1
            · simp only [AMap.get_insert, hg, if_false]; exact h1
          · simp only [AMap.get_insert, hg, if_false]; exact h1
      · simp only [clientStep, Collection.step, Collection.setNativeDiagnostics]
        split
        · split <;> exact h2
        · exact h2

/-- The fixes a user should be offered for a file: those given since the last clear with a
diagnostic that did not look like one already kept.  `kept` are the diagnostics kept so far. -/
def fixesFrom (kept : List Diagnostic) (fixes : List Fix) (f : Nat) : List Op → List Fix
  | [] => fixes
  | .clearCheck :: ops => fixesFrom [] [] f ops
  | .addCheck g d actions :: ops =>
    if g = f ∧ visible d ∉ kept.map visible then
      fixesFrom (kept ++ [d]) (fixes ++ actions.map fun a => ⟨d.range, a⟩) f ops
    else fixesFrom kept fixes f ops
  | _ :: ops => fixesFrom kept fixes f ops

/-- C22: the fixes stored for a file are the ones given since the last clear, with the range of
the diagnostic they belong to, except those of repeated diagnostics. -/
theorem stored_fixes_spec (ops : List Op) (f : Nat) :
    ((clientRun ops).1.checkFixes.get f).getD [] = fixesFrom [] [] f ops := by
  suffices ∀ (ops : List Op) (s : Collection × (Nat → List Diagnostic)),
      ((ops.foldl clientStep s).1.checkFixes.get f).getD [] =
        fixesFrom ((s.1.check.get f).getD []) ((s.1.checkFixes.get f).getD []) f ops from
    this ops _
  intro ops
  induction ops with
  | nil => intro s; rfl
  | cons op ops ih =>
    intro s
    rw [List.foldl_cons, ih]
    cases op with
    | drain =>
      have e : (clientStep s .drain).1.checkFixes = s.1.checkFixes ∧ (clientStep s .drain).1.check = s.1.check := by
        simp only [clientStep, Collection.step, Collection.takeChanges]
        by_cases he : s.1.changes.isEmpty = true <;> simp [he]
      rw [e.1, e.2]
      rfl
    | clearCheck => rfl
    | setNative g ds =>
      have e : (clientStep s (.setNative g ds)).1.checkFixes = s.1.checkFixes ∧
          (clientStep s (.setNative g ds)).1.check = s.1.check := by
        simp only [clientStep, Collection.step, Collection.setNativeDiagnostics]
        split
        · split <;> exact ⟨rfl, rfl⟩
        · exact ⟨rfl, rfl⟩
      rw [e.1, e.2]
      rfl
    | addCheck g d actions =>
      simp only [fixesFrom, clientStep, Collection.step, Collection.addCheckDiagnostic]
      have hany : (((s.1.check.get g).getD []).any (fun e => areDiagnosticsEqual e d) = true) ↔
          visible d ∈ ((s.1.check.get g).getD []).map visible := by
        simp only [List.any_eq_true, equal_iff, List.mem_map]
      by_cases hx : visible d ∈ ((s.1.check.get g).getD []).map visible
      · rw [if_pos (hany.2 hx), if_neg]
        rintro ⟨rfl, h⟩
        exact h hx
      · rw [if_neg (fun h => hx (hany.1 h))]
        by_cases hg : g = f
        · subst hg
          rw [if_pos ⟨rfl, hx⟩]
          simp [AMap.get_insert]
        · rw [if_neg (fun h => hg h.1)]
          simp [AMap.get_insert, hg]

/-- C22: a file is reported only if a call since the last drain concerned it. -/
theorem reported_only_if_touched (c : Collection) (op : Op) (f : Nat) (h : f ∈ (c.step op).changes) :
    f ∈ c.changes ∨ (op = .clearCheck ∧ c.check.get f ≠ none) ∨ (∃ d x, op = .addCheck f d x) ∨
      (∃ ds, op = .setNative f ds ∧ ∀ old, c.native.get f = some old → old.map visible ≠ ds.map visible) := by
  cases op with
  | drain =>
    simp only [Collection.step, Collection.takeChanges] at h
    by_cases he : c.changes.isEmpty = true
    · simp only [he, if_true] at h; exact Or.inl h
    · simp [he] at h
  | clearCheck =>
    simp only [Collection.step, Collection.clearCheck, mem_foldl_insertSet, AMap.mem_keys] at h
    rcases h with h | h
    · exact Or.inr (Or.inl ⟨rfl, by intro hn; simp [hn] at h⟩)
    · exact Or.inl h
  | addCheck g d x =>
    simp only [Collection.step, Collection.addCheckDiagnostic] at h
    split at h
    · exact Or.inl h
    · rcases mem_insertSet.1 h with rfl | h
      · exact Or.inr (Or.inr (Or.inl ⟨_, _, rfl⟩))
      · exact Or.inl h
  | setNative g ds =>
    simp only [Collection.step, Collection.setNativeDiagnostics] at h
    by_cases hm : f ∈ c.changes
    · exact Or.inl hm
    · refine Or.inr (Or.inr (Or.inr ?_))
      split at h
      · rename_i ex hex
        split at h
        · exact absurd h hm
        · rename_i hs
          rcases mem_insertSet.1 h with rfl | h
          · refine ⟨ds, rfl, fun old ho he => hs ?_⟩
            rw [hex] at ho; simp at ho; subst ho
            exact (same_iff _ _).2 he.symm
          · exact absurd h hm
      · rename_i hex
        rcases mem_insertSet.1 h with rfl | h
        · exact ⟨ds, rfl, fun old ho => by rw [hex] at ho; simp at ho⟩
        · exact absurd h hm

/-- A diagnostic for the examples. -/
def sampleDiag (m : String) : Diagnostic := ⟨⟨⟨0, 0⟩, ⟨0, 0⟩⟩, some 1, some "x", m.toList, []⟩

/-- A history with a repeated check diagnostic, a clear and an ineffective native update. -/
def sampleOps : List Op :=
  [.setNative 0 [sampleDiag "a"], .addCheck 0 (sampleDiag "b") [7], .addCheck 0 (sampleDiag "b") [],
   .drain, .setNative 0 [sampleDiag "a"], .addCheck 1 (sampleDiag "c") [], .clearCheck, .setNative 2 []]

example : (clientRun sampleOps).1.changes = [1, 0, 2] ∧
    (clientRun sampleOps).2 0 = [sampleDiag "a", sampleDiag "b"] ∧
    (clientRun (sampleOps ++ [.drain])).2 0 = [sampleDiag "a"] := by decide

example : ((clientRun (sampleOps.take 3)).1.checkFixes.get 0) = some [⟨⟨⟨0, 0⟩, ⟨0, 0⟩⟩, 7⟩] ∧
    ((clientRun sampleOps).1.checkFixes.get 0) = none := by decide

end Verif.Diagnostics
