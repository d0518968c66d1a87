import Verif.Db.Model

/-! Property C45: source roots and file texts of the analysis database. -/

namespace Verif.Db

open Verif.FileSet

/-! ## Specification -/

/-- The list of roots last given in a sequence of changes. -/
def lastRootsFrom (init : List SourceRoot) : List Change → List SourceRoot
  | [] => init
  | c :: cs => lastRootsFrom (c.roots.getD init) cs

/-- The text last given for a file in one change; a missing text counts as empty. -/
def lastTextIn (init : Option Text) (f : Nat) : List (Nat × Option Text) → Option Text
  | [] => init
  | (g, t) :: rest => lastTextIn (if g = f then some (t.getD []) else init) f rest

/-- The text last given for a file in a sequence of changes. -/
def lastTextFrom (init : Option Text) (f : Nat) : List Change → Option Text
  | [] => init
  | c :: cs => lastTextFrom (lastTextIn init f c.filesChanged) f cs

/-- `ListedLast roots f k`: root `k` lists the file `f` and no later root does. -/
def ListedLast (roots : List SourceRoot) (f k : Nat) : Prop :=
  (∃ r, roots[k]? = some r ∧ f ∈ r.iter) ∧ ∀ (j : Nat) r, roots[j]? = some r → f ∈ r.iter → j ≤ k

/-! ## Lemmas -/

theorem get_setFileRoots (files : List Nat) (m : AMap Nat Nat) (k f : Nat) :
    (setFileRoots m files k).get f = if f ∈ files then some k else m.get f := by
  unfold setFileRoots
  induction files generalizing m with
  | nil => simp
  | cons g gs ih =>
    rw [List.foldl_cons, ih, AMap.get_insert]
    by_cases h1 : f ∈ gs
    · simp [h1]
    · by_cases h2 : g = f
      · simp [h2]
      · simp [h1, h2, Ne.symm h2]

theorem applyRoots_fields (roots : List SourceRoot) (db : Db) (idx : Nat) :
    (applyRoots db roots idx).fileText = db.fileText ∧
    (applyRoots db roots idx).localRoots = db.localRoots ∧
    (applyRoots db roots idx).libraryRoots = db.libraryRoots := by
  induction roots generalizing db idx with
  | nil => simp [applyRoots]
  | cons r rs ih => simp only [applyRoots]; obtain ⟨h1, h2, h3⟩ := ih { db with
      fileSourceRoot := setFileRoots db.fileSourceRoot r.iter idx
      sourceRoot := db.sourceRoot.insert idx r } (idx + 1); exact ⟨h1, h2, h3⟩

theorem applyRoots_sourceRoot (roots : List SourceRoot) (db : Db) (idx k : Nat) :
    (applyRoots db roots idx).sourceRoot.get k =
      if idx ≤ k ∧ k < idx + roots.length then roots[k - idx]? else db.sourceRoot.get k := by
  induction roots generalizing db idx with
  | nil => simp [applyRoots]; omega
  | cons r rs ih =>
    simp only [applyRoots, ih, AMap.get_insert, List.length_cons]
    by_cases h1 : idx + 1 ≤ k ∧ k < idx + 1 + rs.length
    · have h2 : idx ≤ k ∧ k < idx + (rs.length + 1) := by omega
      simp only [h1, h2, and_self, if_true]
      obtain ⟨j, rfl⟩ : ∃ j, k = idx + 1 + j := ⟨k - (idx + 1), by omega⟩
      rw [show idx + 1 + j - (idx + 1) = j by omega, show idx + 1 + j - idx = j + 1 by omega]
      rfl
    · simp only [h1, if_false]
      by_cases h2 : idx = k
      · subst h2; simp
      · have h3 : ¬ (idx ≤ k ∧ k < idx + (rs.length + 1)) := by omega
        simp [h2, h3]

theorem applyRoots_fileSourceRoot (roots : List SourceRoot) (db : Db) (idx f : Nat) :
    (∀ k, ListedLast roots f k → (applyRoots db roots idx).fileSourceRoot.get f = some (idx + k)) ∧
    ((∀ r ∈ roots, f ∉ r.iter) → (applyRoots db roots idx).fileSourceRoot.get f = db.fileSourceRoot.get f) := by
  induction roots generalizing db idx with
  | nil =>
    refine ⟨?_, fun _ => rfl⟩
    rintro k ⟨⟨r, h, _⟩, _⟩
    simp at h
  | cons r rs ih =>
    simp only [applyRoots]
    obtain ⟨ih1, ih2⟩ := ih { db with
      fileSourceRoot := setFileRoots db.fileSourceRoot r.iter idx
      sourceRoot := db.sourceRoot.insert idx r } (idx + 1)
    constructor
    · rintro k ⟨⟨r', h1, h2⟩, h3⟩
      cases k with
      | zero =>
        simp at h1
        subst h1
        rw [ih2, get_setFileRoots]
        · simp [h2]
        · intro x hx hf
          obtain ⟨j, hj, rfl⟩ := List.getElem_of_mem hx
          have := h3 (j + 1) rs[j] (by simp [hj]) hf
          omega
      | succ k =>
        rw [ih1 k ⟨⟨r', by simpa using h1, h2⟩, fun j x hj hx => by
          have := h3 (j + 1) x (by simpa using hj) hx; omega⟩]
        congr 1; omega
    · intro hn
      rw [ih2 (fun x hx => hn x (by simp [hx])), get_setFileRoots]
      simp [hn r (by simp)]

theorem splitRoots_mem (roots : List SourceRoot) (idx : Nat) (acc : List Nat × List Nat) (k : Nat) :
    (k ∈ (splitRoots roots idx acc).1 ↔
      k ∈ acc.1 ∨ ∃ r, idx ≤ k ∧ roots[k - idx]? = some r ∧ r.isLibrary = false) ∧
    (k ∈ (splitRoots roots idx acc).2 ↔
      k ∈ acc.2 ∨ ∃ r, idx ≤ k ∧ roots[k - idx]? = some r ∧ r.isLibrary = true) := by
  induction roots generalizing idx acc with
  | nil => simp [splitRoots]
  | cons r rs ih =>
    obtain ⟨lo, li⟩ := acc
    have key : ∀ b, (∃ x, idx ≤ k ∧ (r :: rs)[k - idx]? = some x ∧ x.isLibrary = b) ↔
        (k = idx ∧ r.isLibrary = b) ∨ ∃ x, idx + 1 ≤ k ∧ rs[k - (idx + 1)]? = some x ∧ x.isLibrary = b := by
      intro b
      by_cases hk : k = idx
      · subst hk
        simp
        omega
      · constructor
        · rintro ⟨x, h1, h2, h3⟩
          obtain ⟨j, rfl⟩ : ∃ j, k = idx + 1 + j := ⟨k - (idx + 1), by omega⟩
          refine Or.inr ⟨x, by omega, ?_, h3⟩
          rw [show idx + 1 + j - idx = j + 1 by omega] at h2
          rw [show idx + 1 + j - (idx + 1) = j by omega]
          simpa using h2
        · rintro (⟨h, _⟩ | ⟨x, h1, h2, h3⟩)
          · exact absurd h hk
          · obtain ⟨j, rfl⟩ : ∃ j, k = idx + 1 + j := ⟨k - (idx + 1), by omega⟩
            refine ⟨x, by omega, ?_, h3⟩
            rw [show idx + 1 + j - (idx + 1) = j by omega] at h2
            rw [show idx + 1 + j - idx = j + 1 by omega]
            simpa using h2
    simp only [splitRoots, key]
    split
    · rename_i hl
      obtain ⟨i1, i2⟩ := ih (idx + 1) (lo, li ++ [idx])
      rw [i1, i2]
      simp [hl]
      grind
    · rename_i hl
      obtain ⟨i1, i2⟩ := ih (idx + 1) (lo ++ [idx], li)
      rw [i1, i2]
      simp [hl]
      grind

theorem applyFiles_spec (fs : List (Nat × Option Text)) {db db' : Db} (h : fs.foldlM applyFile db = some db') :
    db'.fileSourceRoot = db.fileSourceRoot ∧ db'.sourceRoot = db.sourceRoot ∧ db'.localRoots = db.localRoots ∧
      db'.libraryRoots = db.libraryRoots ∧ ∀ f, db'.fileText.get f = lastTextIn (db.fileText.get f) f fs := by
  induction fs generalizing db with
  | nil => simp at h; subst h; simp [lastTextIn]
  | cons x xs ih =>
    obtain ⟨g, t⟩ := x
    rw [List.foldlM_cons] at h
    cases hx : applyFile db (g, t) with
    | none => rw [hx] at h; simp at h
    | some d =>
      rw [hx] at h
      simp only [Option.bind_eq_bind, Option.bind_some] at h
      obtain ⟨a1, a2, a3, a4, a5⟩ := ih h
      unfold applyFile at hx
      split at hx
      · simp at hx
      · split at hx
        · simp at hx
        · simp at hx
          subst hx
          refine ⟨a1, a2, a3, a4, fun f => ?_⟩
          rw [a5]
          simp only [lastTextIn, AMap.get_insert]

/-! ## C45 -/

/-- The database after a sequence of changes. -/
def runChanges (cs : List Change) : Option Db := cs.foldlM Db.applyChange Db.new

/-- The effect of one change on all inputs. -/
theorem applyChange_spec {db db' : Db} {c : Change} (h : db.applyChange c = some db') :
    (∀ f, db'.fileText.get f = lastTextIn (db.fileText.get f) f c.filesChanged) ∧
    (c.roots = none → db'.fileSourceRoot = db.fileSourceRoot ∧ db'.sourceRoot = db.sourceRoot ∧
      db'.localRoots = db.localRoots ∧ db'.libraryRoots = db.libraryRoots) ∧
    (∀ roots, c.roots = some roots →
      (∀ k, db'.sourceRoot.get k = if k < roots.length then roots[k]? else db.sourceRoot.get k) ∧
      (∀ f k, ListedLast roots f k → db'.fileSourceRoot.get f = some k) ∧
      (∀ f, (∀ r ∈ roots, f ∉ r.iter) → db'.fileSourceRoot.get f = db.fileSourceRoot.get f) ∧
      (∀ k, k ∈ db'.localRoots ↔ ∃ r, roots[k]? = some r ∧ r.isLibrary = false) ∧
      (∀ k, k ∈ db'.libraryRoots ↔ ∃ r, roots[k]? = some r ∧ r.isLibrary = true)) := by
  unfold Db.applyChange Change.apply at h
  cases hc : c.roots with
  | none =>
    rw [hc] at h
    obtain ⟨a1, a2, a3, a4, a5⟩ := applyFiles_spec _ h
    exact ⟨a5, fun _ => ⟨a1, a2, a3, a4⟩, by simp⟩
  | some roots =>
    rw [hc] at h
    simp only at h
    obtain ⟨a1, a2, a3, a4, a5⟩ := applyFiles_spec _ h
    generalize hd : ({ db with
      localRoots := (splitRoots roots 0 ([], [])).1
      libraryRoots := (splitRoots roots 0 ([], [])).2 } : Db) = d at *
    obtain ⟨f1, f2, f3⟩ := applyRoots_fields roots d 0
    refine ⟨fun f => ?_, by simp, ?_⟩
    · rw [a5, f1, ← hd]
    · intro rs hrs
      simp at hrs
      subst hrs
      refine ⟨fun k => ?_, fun f k hk => ?_, fun f hf => ?_, fun k => ?_, fun k => ?_⟩
      · rw [a2, applyRoots_sourceRoot, ← hd]; simp
      · rw [a1, (applyRoots_fileSourceRoot roots d 0 f).1 k hk]; simp
      · rw [a1, (applyRoots_fileSourceRoot roots d 0 f).2 hf, ← hd]
      · rw [a3, f2, ← hd]; simp [splitRoots_mem]
      · rw [a4, f3, ← hd]; simp [splitRoots_mem]

/-- C45: after any sequence of changes, for the list of roots given last: every root is stored
under its index and is in exactly one of the two sets, according to its flag; nothing else is
in the sets; and every file has the root that lists it (the last one, if there are several). -/
theorem roots_are_local_or_library (cs : List Change) (db : Db) (h : runChanges cs = some db) :
    (∀ (k : Nat) r, (lastRootsFrom [] cs)[k]? = some r → db.sourceRoot.get k = some r) ∧
    (∀ k, k ∈ db.localRoots ↔ ∃ r, (lastRootsFrom [] cs)[k]? = some r ∧ r.isLibrary = false) ∧
    (∀ k, k ∈ db.libraryRoots ↔ ∃ r, (lastRootsFrom [] cs)[k]? = some r ∧ r.isLibrary = true) ∧
    (∀ k, ¬ (k ∈ db.localRoots ∧ k ∈ db.libraryRoots)) ∧
    (∀ f k, ListedLast (lastRootsFrom [] cs) f k → db.fileSourceRoot.get f = some k) := by
  suffices ∀ (cs : List Change) (d : Db) (init : List SourceRoot),
      (∀ (k : Nat) r, init[k]? = some r → d.sourceRoot.get k = some r) →
      (∀ k, k ∈ d.localRoots ↔ ∃ r, init[k]? = some r ∧ r.isLibrary = false) →
      (∀ k, k ∈ d.libraryRoots ↔ ∃ r, init[k]? = some r ∧ r.isLibrary = true) →
      (∀ f k, ListedLast init f k → d.fileSourceRoot.get f = some k) →
      cs.foldlM Db.applyChange d = some db →
      (∀ (k : Nat) r, (lastRootsFrom init cs)[k]? = some r → db.sourceRoot.get k = some r) ∧
      (∀ k, k ∈ db.localRoots ↔ ∃ r, (lastRootsFrom init cs)[k]? = some r ∧ r.isLibrary = false) ∧
      (∀ k, k ∈ db.libraryRoots ↔ ∃ r, (lastRootsFrom init cs)[k]? = some r ∧ r.isLibrary = true) ∧
      (∀ f k, ListedLast (lastRootsFrom init cs) f k → db.fileSourceRoot.get f = some k) by
    obtain ⟨h1, h2, h3, h4⟩ := this cs Db.new [] (by simp) (by simp [Db.new]) (by simp [Db.new])
      (by rintro f k ⟨⟨r, hr, _⟩, _⟩; simp at hr) h
    refine ⟨h1, h2, h3, ?_, h4⟩
    rintro k ⟨hk1, hk2⟩
    obtain ⟨r, hr, hl⟩ := (h2 k).1 hk1
    obtain ⟨r', hr', hl'⟩ := (h3 k).1 hk2
    rw [hr] at hr'
    simp at hr'
    subst hr'
    rw [hl] at hl'
    simp at hl'
  intro cs
  induction cs with
  | nil =>
    intro d init h1 h2 h3 h4 hd
    simp at hd
    subst hd
    exact ⟨h1, h2, h3, h4⟩
  | cons c cs ih =>
    intro d init h1 h2 h3 h4 hd
    rw [List.foldlM_cons] at hd
    cases hx : d.applyChange c with
    | none => rw [hx] at hd; simp at hd
    | some d1 =>
      rw [hx] at hd
      simp only [Option.bind_eq_bind, Option.bind_some] at hd
      obtain ⟨_, s2, s3⟩ := applyChange_spec hx
      simp only [lastRootsFrom]
      cases hc : c.roots with
      | none =>
        obtain ⟨e1, e2, e3, e4⟩ := s2 hc
        exact ih d1 init (by rw [e2]; exact h1) (by rw [e3]; exact h2) (by rw [e4]; exact h3)
          (by rw [e1]; exact h4) hd
      | some roots =>
        obtain ⟨e1, e2, _, e4, e5⟩ := s3 roots hc
        refine ih d1 roots ?_ e4 e5 e2 hd
        intro k r hk
        rw [e1, if_pos (List.getElem?_eq_some_iff.1 hk).1]
        exact hk

/-- C45: the text of every file is the one last set, a removed file having the empty text. -/
theorem text_is_last_set (cs : List Change) (db : Db) (h : runChanges cs = some db) (f : Nat) :
    db.fileText.get f = lastTextFrom none f cs := by
  suffices ∀ (cs : List Change) (d : Db), cs.foldlM Db.applyChange d = some db →
      db.fileText.get f = lastTextFrom (d.fileText.get f) f cs from this cs _ h
  intro cs
  induction cs with
  | nil => intro d hd; simp at hd; subst hd; rfl
  | cons c cs ih =>
    intro d hd
    rw [List.foldlM_cons] at hd
    cases hx : d.applyChange c with
    | none => rw [hx] at hd; simp at hd
    | some d1 =>
      rw [hx] at hd
      simp only [Option.bind_eq_bind, Option.bind_some] at hd
      rw [ih d1 hd, (applyChange_spec hx).1 f, lastTextFrom]

/-- A change is applied without panic if every changed file is listed by a root of the change
or had a stored root before. -/
theorem applyChange_total (db : Db) (c : Change)
    (hroots : ∀ f k, db.fileSourceRoot.get f = some k → (db.sourceRoot.get k).isSome)
    (hfiles : ∀ x ∈ c.filesChanged, (db.fileSourceRoot.get x.1).isSome ∨
      ∃ roots, c.roots = some roots ∧ ∃ r ∈ roots, x.1 ∈ r.iter) :
    ∃ db', db.applyChange c = some db' := by
  have total : ∀ (fs : List (Nat × Option Text)) (d : Db),
      (∀ x ∈ fs, ∃ k, d.fileSourceRoot.get x.1 = some k ∧ (d.sourceRoot.get k).isSome) →
      ∃ d', fs.foldlM applyFile d = some d' := by
    intro fs
    induction fs with
    | nil => intro d _; exact ⟨d, rfl⟩
    | cons x xs ih =>
      intro d hd
      obtain ⟨k, hk, hr⟩ := hd x (by simp)
      obtain ⟨r, hr⟩ := Option.isSome_iff_exists.1 hr
      rw [List.foldlM_cons, applyFile, hk]
      simp only [hr, Option.bind_eq_bind, Option.bind_some]
      exact ih _ (fun y hy => hd y (by simp [hy]))
  unfold Db.applyChange Change.apply
  cases hc : c.roots with
  | none =>
    simp only [hc]
    refine total _ db (fun x hx => ?_)
    rcases hfiles x hx with h | ⟨roots, h, _⟩
    · obtain ⟨k, hk⟩ := Option.isSome_iff_exists.1 h
      exact ⟨k, hk, hroots _ _ hk⟩
    · rw [hc] at h; simp at h
  | some roots =>
    simp only
    apply total
    intro x hx
    generalize hd : ({ db with
      localRoots := (splitRoots roots 0 ([], [])).1
      libraryRoots := (splitRoots roots 0 ([], [])).2 } : Db) = d
    obtain ⟨q1, q2⟩ := applyRoots_fileSourceRoot roots d 0 x.1
    by_cases hl : ∃ r ∈ roots, x.1 ∈ r.iter
    · -- the last root that lists the file
      have : ∃ k, ListedLast roots x.1 k := by
        obtain ⟨r, hr, hm⟩ := hl
        obtain ⟨j, hj, rfl⟩ := List.getElem_of_mem hr
        clear q1 q2 hd hx hroots hfiles hc hr
        have : ∀ n j (hj : j < roots.length), x.1 ∈ roots[j].iter → roots.length - j ≤ n →
            ∃ k, ListedLast roots x.1 k := by
          intro n
          induction n with
          | zero => intro j hj _ hn; omega
          | succ n ih =>
            intro j hj hm hn
            by_cases hlast : ∃ (i : Nat) (r : SourceRoot), roots[i]? = some r ∧ x.1 ∈ r.iter ∧ j < i
            · obtain ⟨i, r, hi, hmi, hji⟩ := hlast
              obtain ⟨hi', rfl⟩ := List.getElem?_eq_some_iff.1 hi
              exact ih i hi' hmi (by omega)
            · refine ⟨j, ⟨_, List.getElem?_eq_getElem hj, hm⟩, fun i r hi hr => ?_⟩
              apply Classical.byContradiction
              intro hn
              exact hlast ⟨i, r, hi, hr, by omega⟩
        exact this _ j hj hm (Nat.le_refl _)
      obtain ⟨k, hk⟩ := this
      refine ⟨k, by rw [q1 k hk]; simp, ?_⟩
      obtain ⟨⟨r, hr, _⟩, _⟩ := hk
      have hlt := (List.getElem?_eq_some_iff.1 hr).1
      rw [applyRoots_sourceRoot, if_pos (by omega)]
      simp [hr]
    · have hn : ∀ r ∈ roots, x.1 ∉ r.iter := fun r hr hm => hl ⟨r, hr, hm⟩
      rcases hfiles x hx with h | ⟨rs, h1, h2⟩
      · obtain ⟨k, hk⟩ := Option.isSome_iff_exists.1 h
        refine ⟨k, by rw [q2 hn, ← hd]; exact hk, ?_⟩
        rw [applyRoots_sourceRoot]
        split
        · rename_i hlt
          simp
          omega
        · rw [← hd]; exact hroots _ _ hk
      · rw [hc] at h1; simp at h1; subst h1; exact absurd h2 hl

/-- A file set with the given ids. -/
def sampleSet (ids : List Nat) : FileSet := ids.foldl (fun s i => s.insert i (.pathBuf [UInt8.ofNat i])) FileSet.empty

/-- A local root, a library root, then a change of the roots. -/
def sampleChanges : List Change :=
  [⟨some [⟨false, sampleSet [0, 1]⟩, ⟨true, sampleSet [2]⟩], [(0, some ['a']), (2, some ['b'])]⟩,
   ⟨none, [(0, some ['c'])]⟩,
   ⟨some [⟨true, sampleSet [2, 0]⟩], [(1, none)]⟩]

example : ∃ db, runChanges sampleChanges = some db ∧ db.localRoots = [] ∧ db.libraryRoots = [0] ∧
    db.fileText.get 0 = some ['c'] ∧ db.fileText.get 1 = some [] ∧ db.fileSourceRoot.get 0 = some 0 :=
  ⟨_, rfl, rfl, rfl, rfl, rfl, rfl⟩

end Verif.Db
