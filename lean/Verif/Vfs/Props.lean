import Verif.Vfs.Lemmas

/-! Properties C12 to C15: the file store. -/

set_option linter.unusedSectionVars false

namespace Verif.Vfs

variable {P C : Type} [DecidableEq P] [DecidableEq C]

/-- A history with deletion, re-creation, an ineffective write and a drain. -/
def sample : List (Op String Nat) :=
  [.set "/a" (some 1), .set "/b" (some 2), .set "/a" none, .take, .set "/a" (some 3), .set "/b" (some 2),
   .set "/c" none]

example : run sample = some ⟨["/a", "/b", "/c"], [some 3, some 2, none], [⟨0, .create⟩]⟩ := rfl

/-- No call of a history panics as long as fewer than `u32::MAX` different paths are used. -/
theorem history_does_not_panic (ops : List (Op P C)) (ps : List P) (hlen : ps.length ≤ maxId)
    (hps : ∀ p ∈ pathsOf ops, p ∈ ps) : ∃ v, run ops = some v := by
  suffices ∀ (ops : List (Op P C)) (v : Vfs P C), Ok v → v.interner ⊆ ps → (∀ p ∈ pathsOf ops, p ∈ ps) →
      ∃ v', ops.foldlM step v = some v' from this ops _ ok_empty (by simp [Vfs.empty]) hps
  intro ops
  induction ops with
  | nil => intro v _ _ _; exact ⟨v, rfl⟩
  | cons op ops ih =>
    intro v hv hsub hall
    cases op with
    | take =>
      simp only [List.foldlM_cons, step, Option.bind_eq_bind, Option.bind_some]
      exact ih _ ⟨hv.nodup, hv.len, hv.bound⟩ hsub hall
    | set p c =>
      have hp : p ∈ ps := hall p (by simp [pathsOf])
      have hb : p ∈ v.interner ∨ v.interner.length < maxId := by
        by_cases hm : p ∈ v.interner
        · exact Or.inl hm
        · right
          have : (p :: v.interner).length ≤ ps.length :=
            List.Nodup.length_le_of_subset (List.nodup_cons.2 ⟨hm, hv.nodup⟩)
              (by intro x hx; rcases List.mem_cons.1 hx with rfl | hx; exact hp; exact hsub hx)
          simp at this
          omega
      obtain ⟨⟨v1, b⟩, hset⟩ := set_total v hv p c hb
      obtain ⟨k1, k2, _⟩ := set_spec hv hset
      simp only [List.foldlM_cons, step, hset, Option.map_some, Option.bind_eq_bind, Option.bind_some]
      refine ih v1 k1 ?_ (fun q hq => hall q (by simp [pathsOf, hq]))
      intro x hx
      rcases set_interner hv hset hx with rfl | hx
      · exact hp
      · exact hsub hx

example : (["/a", "/b", "/c"] : List String).length ≤ maxId ∧
    ∀ p ∈ pathsOf sample, p ∈ ["/a", "/b", "/c"] := by decide

/-! ## C12 -/

/-- C12: if `later` extends `earlier`, an id that denoted a path still denotes it. -/
theorem path_of_id_is_stable (earlier more : List (Op P C)) (v v' : Vfs P C)
    (h : run earlier = some v) (h' : run (earlier ++ more) = some v') (id : Nat) (p : P)
    (hp : v.filePath id = some p) : v'.filePath id = some p := by
  rw [run_append, h] at h'
  exact prefix_getElem? (runFrom_spec more (run_ok h) h').2.1 hp

/-- C12: at all moments of a history a path has the same id, also after deletion and
re-creation. -/
theorem id_of_path_is_stable (earlier more : List (Op P C)) (v v' : Vfs P C)
    (h : run earlier = some v) (h' : run (earlier ++ more) = some v') (p : P) (i j : Nat)
    (hi : v.fileId p = some (some i)) (hj : v'.fileId p = some (some j)) : i = j := by
  have hok := run_ok h
  have hok' := run_ok h'
  obtain ⟨h1, _⟩ := fileId_some hok hi
  obtain ⟨h2, _⟩ := fileId_some hok' hj
  rw [run_append, h] at h'
  obtain ⟨r, hr⟩ := (runFrom_spec more hok h').2.1
  rw [← hr, indexOf_append_of_some h1] at h2
  simpa using h2

/-- C12: an id seen for a path is never seen for another path, now or later. -/
theorem id_is_never_reused (earlier more : List (Op P C)) (v v' : Vfs P C)
    (h : run earlier = some v) (h' : run (earlier ++ more) = some v') (p q : P) (i : Nat)
    (hi : v.fileId p = some (some i)) (hj : v'.fileId q = some (some i)) : p = q := by
  have hok := run_ok h
  have hok' := run_ok h'
  obtain ⟨h1, _⟩ := fileId_some hok hi
  obtain ⟨h2, _⟩ := fileId_some hok' hj
  rw [run_append, h] at h'
  have h3 := prefix_getElem? (runFrom_spec more hok h').2.1 (indexOf_some h1)
  rw [indexOf_some h2] at h3
  simpa using h3.symm

/-- C12: the id of a live file looks up to its path. -/
theorem path_of_id_of_path (ops : List (Op P C)) (v : Vfs P C) (h : run ops = some v) (p : P) (i : Nat)
    (hi : v.fileId p = some (some i)) : v.filePath i = some p :=
  indexOf_some (fileId_some (run_ok h) hi).1

example : ∃ v v', run (sample.take 2) = some v ∧ run (sample.take 2 ++ sample.drop 2) = some v' ∧
    v.fileId "/a" = some (some 0) ∧ v'.fileId "/a" = some (some 0) ∧ v.filePath 0 = some "/a" :=
  ⟨_, _, rfl, rfl, by decide, by decide, by decide⟩

/-! ## C13 -/

/-- C13: reading a path through the API gives the last write to it: the file has an id exactly
when that write was not a deletion, and the contents under that id are those written. -/
theorem reads_last_write (ops : List (Op P C)) (v : Vfs P C) (h : run ops = some v) (p : P) :
    (lastWrite ops p = none → v.fileId p = some none) ∧
    (∀ c, lastWrite ops p = some c → ∃ id, v.fileId p = some (some id) ∧ v.fileContents id = some c) := by
  have hok := run_ok h
  have hat := run_at h p
  constructor
  · intro hn
    rw [fileId_eq v hok, hat, hn]
    cases indexOf p v.interner <;> simp
  · intro c hc
    rw [hc] at hat
    unfold at_ at hat
    cases hi : indexOf p v.interner with
    | none => rw [hi] at hat; simp at hat
    | some i =>
      rw [hi] at hat
      simp only at hat
      refine ⟨i, ?_, ?_⟩
      · rw [fileId_eq v hok, hi]; simp [at_, hi, hat]
      · unfold Vfs.fileContents Vfs.get
        cases hd : v.data[i]? with
        | none => rw [hd] at hat; simp at hat
        | some o => rw [hd] at hat; simp at hat; subst hat; rfl

example : lastWrite sample "/a" = some 3 ∧ lastWrite sample "/c" = none := by decide

/-! ## C14 -/

theorem fileContents_eq (v : Vfs P C) (id : Nat) : v.fileContents id = v.data[id]?.join := by
  unfold Vfs.fileContents Vfs.get
  cases v.data[id]? with
  | none => rfl
  | some o => cases o <;> rfl

/-- The last record about a file. -/
def lastRecord (rs : List ChangedFile) (id : Nat) : Option ChangedFile :=
  (rs.filter (fun r => r.fileId == id)).getLast?

theorem foldl_consume (fetch copy : Nat → Option C) (rs : List ChangedFile) (id : Nat) :
    rs.foldl (consume fetch) copy id =
      match lastRecord rs id with
      | none => copy id
      | some r => if r.exists then fetch id else none := by
  induction rs generalizing copy with
  | nil => simp [lastRecord]
  | cons r rs ih =>
    rw [List.foldl_cons, ih]
    unfold lastRecord
    by_cases hr : r.fileId = id
    · rw [List.filter_cons_of_pos (by simp [hr])]
      cases hf : rs.filter (fun r => r.fileId == id) with
      | nil => simp [consume, hr]
      | cons a as => rw [List.getLast?_cons_cons, List.getLast?_eq_some_getLast (by simp)]
    · rw [List.filter_cons_of_neg (by simp [hr])]
      cases (rs.filter (fun r => r.fileId == id)).getLast? with
      | none => simp [consume, Ne.symm hr]
      | some a => rfl

theorem lastRecord_append (rs : List ChangedFile) (r : ChangedFile) (id : Nat) :
    lastRecord (rs ++ [r]) id = if r.fileId = id then some r else lastRecord rs id := by
  unfold lastRecord
  by_cases h : r.fileId = id <;> simp [h]

/-- What the records since a drain say about every file. -/
def LogOk (base : Nat → Option C) (v : Vfs P C) : Prop :=
  ∀ id : Nat, match lastRecord v.changes id with
    | none => v.data[id]?.join = base id
    | some r => r.exists = (v.data[id]?.join).isSome

theorem logOk_run (base : Nat → Option C) (sets : List (P × Option C)) {v v' : Vfs P C} (hv : Ok v)
    (hl : LogOk base v) (h : (writes sets).foldlM step v = some v') : LogOk base v' := by
  induction sets generalizing v with
  | nil => simp [writes] at h; subst h; exact hl
  | cons s sets ih =>
    obtain ⟨p, c⟩ := s
    simp only [writes, List.map_cons, List.foldlM_cons, step] at h
    cases hs : v.setFileContents p c with
    | none => rw [hs] at h; simp at h
    | some r =>
      obtain ⟨v1, b⟩ := r
      rw [hs] at h
      simp only [Option.map_some, Option.bind_eq_bind, Option.bind_some] at h
      obtain ⟨k1, k2, k3, k4, k5, k6⟩ := set_spec hv hs
      refine ih k1 ?_ h
      intro id
      cases hk : kindOf (at_ v p) c with
      | none =>
        obtain ⟨_, e1, e2⟩ := k6 hk
        rw [e1, e2]
        exact hl id
      | some k =>
        obtain ⟨_, i, e1, e2, e3⟩ := k5 k hk
        rw [e2, lastRecord_append, e3]
        by_cases hid : i = id
        · subst hid
          simp only [if_true]
          cases hat : at_ v p <;> cases c <;> rw [hat] at hk <;> simp [kindOf] at hk
          · subst hk; rfl
          · subst hk; rfl
          · simp [← hk.2, ChangedFile.exists]
        · simp only [if_neg hid, if_neg (Ne.symm hid)]
          exact hl id

/-- C14: after a drain and any further writes, a consumer whose copy equals the store at the
drain handles the drained records and then has a copy equal to the present store. -/
theorem change_log_replays (before : List (Op P C)) (sets : List (P × Option C)) (v1 v2 : Vfs P C)
    (h1 : run (before ++ [.take]) = some v1)
    (h2 : run (before ++ [.take] ++ writes sets) = some v2) :
    v2.takeChanges.2.foldl (consume v2.fileContents) v1.fileContents = v2.fileContents := by
  have hok := run_ok h1
  rw [run_append, h1] at h2
  have hch : v1.changes = [] := by
    rw [run_append] at h1
    cases hb : run before with
    | none => rw [hb] at h1; simp at h1
    | some v0 =>
      rw [hb] at h1
      simp [step, Vfs.takeChanges] at h1
      rw [← h1]
  have hl : LogOk v1.fileContents v1 := by
    intro id
    rw [hch]
    simp [lastRecord, fileContents_eq]
  have := logOk_run _ sets hok hl h2
  funext id
  rw [foldl_consume]
  have hid := this id
  simp only [Vfs.takeChanges]
  cases hr : lastRecord v2.changes id with
  | none => rw [hr] at hid; simp only at hid ⊢; rw [fileContents_eq v2]; exact hid.symm
  | some r =>
    rw [hr] at hid
    simp only at hid
    simp only [hid]
    rw [fileContents_eq]
    cases v2.data[id]?.join <;> simp

/-- C14: the drained records are exactly the effective writes since the last drain, in order,
each with the right kind. -/
theorem change_log_exact (before : List (Op P C)) (sets : List (P × Option C)) (v2 : Vfs P C)
    (h2 : run (before ++ [.take] ++ writes sets) = some v2) :
    v2.takeChanges.2.map (fun r => (v2.filePath r.fileId, r.changeKind)) =
      (specLog (lastWrite before) sets).map (fun r => (some r.1, r.2)) := by
  rw [run_append] at h2
  cases h1 : run (before ++ [.take]) with
  | none => rw [h1] at h2; simp at h2
  | some v1 =>
    rw [h1] at h2
    simp only [Option.bind_some] at h2
    have hok := run_ok h1
    have hat : ∀ p, at_ v1 p = lastWrite before p := by
      intro p
      rw [run_at h1]
      unfold lastWrite
      clear h2 hok h1
      generalize (none : Option C) = o
      induction before generalizing o with
      | nil => rfl
      | cons op ops ih => cases op <;> simp [lastWriteFrom, ih]
    have hch : v1.changes = [] := by
      rw [run_append] at h1
      cases hb : run before with
      | none => rw [hb] at h1; simp at h1
      | some v0 =>
        rw [hb] at h1
        simp [step, Vfs.takeChanges] at h1
        rw [← h1]
    -- generalise over the starting point
    suffices ∀ (sets : List (P × Option C)) (v : Vfs P C) (m : P → Option C), Ok v → (∀ p, at_ v p = m p) →
        (∀ r ∈ v.changes, ∃ p, v.filePath r.fileId = some p) →
        (writes sets).foldlM step v = some v2 →
        v2.changes.map (fun r => (v2.filePath r.fileId, r.changeKind)) =
          v.changes.map (fun r => (v.filePath r.fileId, r.changeKind)) ++
            (specLog m sets).map (fun r => (some r.1, r.2)) by
      have := this sets v1 _ hok hat (by simp [hch]) h2
      simpa [hch, Vfs.takeChanges] using this
    clear h2 hch hat hok h1
    intro sets
    induction sets with
    | nil => intro v m _ _ _ h; simp [writes] at h; subst h; simp [specLog]
    | cons s sets ih =>
      intro v m hv hm hrec h
      obtain ⟨p, c⟩ := s
      simp only [writes, List.map_cons, List.foldlM_cons, step] at h
      cases hs : v.setFileContents p c with
      | none => rw [hs] at h; simp at h
      | some r =>
        obtain ⟨v', b⟩ := r
        rw [hs] at h
        simp only [Option.map_some, Option.bind_eq_bind, Option.bind_some] at h
        obtain ⟨k1, k2, k3, k4, k5, k6⟩ := set_spec hv hs
        have hold : v.changes.map (fun r => (v'.filePath r.fileId, r.changeKind)) =
            v.changes.map (fun r => (v.filePath r.fileId, r.changeKind)) := by
          apply List.map_congr_left
          intro r hr
          obtain ⟨q, hq⟩ := hrec r hr
          rw [hq, Vfs.filePath, prefix_getElem? k2 hq]
        have hm' : ∀ q, at_ v' q = (fun q => if p = q then c else m q) q := by
          intro q; rw [k4]; simp only [hm]
        unfold specLog
        simp only
        cases hk : kindOf (m p) c with
        | none =>
          obtain ⟨_, e1, _⟩ := k6 (by rw [hm]; exact hk)
          have := ih v' _ k1 hm' (by
            rw [e1]; intro r hr; obtain ⟨q, hq⟩ := hrec r hr; exact ⟨q, prefix_getElem? k2 hq⟩) h
          rw [this, e1, hold]
        | some k =>
          obtain ⟨_, i, e1, e2, _⟩ := k5 k (by rw [hm]; exact hk)
          have hi : v'.filePath i = some p := indexOf_some e1
          have := ih v' _ k1 hm' (by
            rw [e2]; intro r hr
            rcases List.mem_append.1 hr with hr | hr
            · obtain ⟨q, hq⟩ := hrec r hr; exact ⟨q, prefix_getElem? k2 hq⟩
            · simp at hr; subst hr; exact ⟨p, hi⟩) h
          rw [this, e2]
          simp [hold, hi]

/-- C14: a write reports a change exactly when the path held something else before. -/
theorem set_reports_change (ops : List (Op P C)) (v v' : Vfs P C) (h : run ops = some v) (p : P)
    (c : Option C) (b : Bool) (hs : v.setFileContents p c = some (v', b)) :
    b = true ↔ lastWrite ops p ≠ c := by
  obtain ⟨_, _, _, _, k5, k6⟩ := set_spec (run_ok h) hs
  rw [run_at h] at k5 k6
  cases hk : kindOf (lastWrite ops p) c with
  | none =>
    rw [(k6 hk).1]
    cases hl : lastWrite ops p <;> cases c <;> rw [hl] at hk <;> simp [kindOf] at hk ⊢
    exact hk
  | some k =>
    rw [(k5 k hk).1]
    cases hl : lastWrite ops p <;> cases c <;> rw [hl] at hk <;> simp [kindOf] at hk ⊢
    exact hk.1

/-- C14: draining twice gives nothing new, and the store says so. -/
theorem second_drain_is_empty (v : Vfs P C) :
    v.takeChanges.1.takeChanges.2 = [] ∧ v.takeChanges.1.hasChanges = false := by
  simp [Vfs.takeChanges, Vfs.hasChanges]

example : ∃ v1 v2, run ((sample.take 3) ++ [.take]) = some v1 ∧
    run ((sample.take 3) ++ [.take] ++ writes [("/a", some 3), ("/b", some 2), ("/b", none)]) = some v2 ∧
    v2.takeChanges.2 = [⟨0, .create⟩, ⟨1, .delete⟩] := ⟨_, _, rfl, rfl, rfl⟩

/-! ## C15 -/

/-- C15: iteration does not panic and lists exactly the live files, each id once, with its
path. -/
theorem iter_lists_live_files (ops : List (Op P C)) (v : Vfs P C) (h : run ops = some v) :
    ∃ l, v.iter = some l ∧ (l.map (·.1)).Nodup ∧ (l.map (·.2)).Nodup ∧
      ∀ id p, (id, p) ∈ l ↔ v.fileId p = some (some id) := by
  have hok := run_ok h
  unfold Vfs.iter
  generalize hids : (List.range v.data.length).filter (fun id => (v.data[id]?.join).isSome) = ids
  have hmem : ∀ id, id ∈ ids → ∃ p, v.filePath id = some p := by
    intro id hid
    rw [← hids] at hid
    simp at hid
    have : id < v.interner.length := by rw [← hok.len]; exact hid.1
    exact ⟨_, List.getElem?_eq_getElem this⟩
  obtain ⟨l, hl, hx1, hx2⟩ := mapM_total (fun id => (v.filePath id).map (fun p => (id, p))) ids (by
    intro id hid; obtain ⟨p, hp⟩ := hmem id hid; simp [hp])
  obtain ⟨hm1, hm2⟩ := mapM_pair v.filePath ids l hl
  have hnd : ids.Nodup := by rw [← hids]; exact List.nodup_range.filter _
  have hiff : ∀ id p, (id, p) ∈ l ↔ v.fileId p = some (some id) := by
    intro id p
    rw [hm2, ← hids]
    simp only [List.mem_filter, List.mem_range]
    rw [fileId_eq v hok]
    constructor
    · rintro ⟨⟨h1, h2⟩, h3⟩
      have hi := indexOf_of_getElem hok.nodup h3
      rw [hi]
      simp [at_, hi, h2]
    · intro hf
      cases hi : indexOf p v.interner with
      | none => rw [hi] at hf; simp at hf
      | some j =>
        rw [hi] at hf
        simp [at_, hi] at hf
        obtain ⟨h1, rfl⟩ := hf
        have h3 := indexOf_some hi
        refine ⟨⟨?_, h1⟩, h3⟩
        rw [hok.len]
        exact (List.getElem?_eq_some_iff.1 h3).1
  refine ⟨l, hl, by rw [hm1]; exact hnd, ?_, hiff⟩
  -- paths are distinct because ids are
  have hl1 : (l.map (·.1)).Nodup := by rw [hm1]; exact hnd
  have hinj : ∀ a ∈ l, ∀ b ∈ l, a.2 = b.2 → a = b := by
    rintro ⟨i, p⟩ ha ⟨j, q⟩ hb hpq
    simp at hpq
    subst hpq
    rw [hiff] at ha hb
    rw [ha] at hb
    simp at hb
    rw [hb]
  clear hiff hm1 hm2 hl hx1 hx2
  induction l with
  | nil => simp
  | cons a l ih =>
    simp only [List.map_cons, List.nodup_cons] at hl1 ⊢
    refine ⟨?_, ih hl1.2 (fun x hx y hy => hinj x (by simp [hx]) y (by simp [hy]))⟩
    intro hm
    obtain ⟨b, hb, hba⟩ := List.mem_map.1 hm
    have := hinj b (by simp [hb]) a (by simp) hba
    subst this
    exact hl1.1 (List.mem_map.2 ⟨b, hb, rfl⟩)

/-- C15: a path has a visible id exactly when its last write was not a deletion. -/
theorem visible_iff_live (ops : List (Op P C)) (v : Vfs P C) (h : run ops = some v) (p : P) :
    (∃ id, v.fileId p = some (some id)) ↔ lastWrite ops p ≠ none := by
  obtain ⟨h1, h2⟩ := reads_last_write ops v h p
  constructor
  · rintro ⟨id, hid⟩ hn
    rw [h1 hn] at hid
    simp at hid
  · intro hn
    obtain ⟨c, hc⟩ := Option.ne_none_iff_exists'.1 hn
    obtain ⟨id, hid, _⟩ := h2 c hc
    exact ⟨id, hid⟩

example : ∃ v, run sample = some v ∧ v.iter = some [(0, "/a"), (1, "/b")] := ⟨_, rfl, by decide⟩

end Verif.Vfs
