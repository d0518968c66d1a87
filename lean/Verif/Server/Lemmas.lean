import Verif.Server.Spec
import Verif.Db.Props
import Verif.FileSet.Props

/-! The invariant of the event loop. -/

set_option autoImplicit false

namespace Verif.Server

open Verif.FileSet Verif.Vfs Verif.Db Verif.Diagnostics Verif.LineEndings Verif.Server.Spec

/-- The file is in the store. -/
def Known (s : State) (id : Nat) : Prop := id < s.vfs.data.length

/-- The results of a task only concern known files; only diagnostics tasks exist. -/
def TaskOk (s : State) : Task → Prop
  | .response _ _ => False
  | .diagnostics r => ∀ x ∈ r, Known s x.1

/-- A job only concerns known files. -/
def JobOk (s : State) : Job → Prop
  | .running subs _ => ∀ f ∈ subs, Known s f
  | .finished t => TaskOk s t

/-- The file's source root is the one its path is classified into, and it is local exactly when the
configuration says so. -/
def RightRoot (s : State) (id : Nat) : Prop :=
  ∃ p root, s.vfs.filePath id = some p ∧ s.db.fileSourceRoot.get id = some (s.sourceRootConfig.fsc.classify p) ∧
    s.db.sourceRoot.get (s.sourceRootConfig.fsc.classify p) = some root ∧
    root.isLibrary = !s.sourceRootConfig.localFilesets.contains (s.sourceRootConfig.fsc.classify p)

/-- The invariant in the middle of a turn of the loop: some changes of the store may not have
reached the database yet. -/
structure Base (ps : List Bytes) (c : Client) (s : State) : Prop where
  reach : ∃ ops, Vfs.run ops = some s.vfs
  within : ∀ p ∈ s.vfs.interner, ∃ b ∈ ps, p = .pathBuf b
  live : ∀ id, Known s id → ∃ t, s.vfs.data[id]?.join = some t
  docs : ∀ p, s.memDocs.docs.get (.pathBuf p) = (c.docs p).map Doc.version
  docsReal : ∀ p ∈ s.memDocs.docs.keys, isReal p = true
  text : ∀ p d, c.docs p = some d → at_ s.vfs (.pathBuf p) = some d.text
  rootsOk : ∀ f k, s.db.fileSourceRoot.get f = some k → (s.db.sourceRoot.get k).isSome
  cfg : ∃ roots, build roots = some s.sourceRootConfig.fsc
  jobs : ∀ j ∈ s.jobs, JobOk s j
  channel : ∀ t ∈ s.channel, TaskOk s t
  reported : ∀ f ∈ s.diagnostics.changes, Known s f
  incoming : s.incoming = []
  outgoing : s.outgoing = c.unanswered
  recs : ∀ r ∈ s.vfs.changes, r.changeKind ≠ .delete ∧ Known s r.fileId
  synced : ∀ id, Known s id → (∃ r ∈ s.vfs.changes, r.fileId = id) ∨
    ((∀ t, s.vfs.data[id]?.join = some t → s.db.fileText.get id = some (normalize t).1) ∧
      (s.lineEndings.get id).isSome)
  rooted : ∀ id, Known s id → (∃ r ∈ s.vfs.changes, r.fileId = id ∧ r.changeKind = .create) ∨
    RightRoot s id

/-- The invariant between turns. -/
structure Inv (ps : List Bytes) (c : Client) (s : State) : Prop extends Base ps c s where
  drained : s.vfs.changes = []
  published : s.diagnostics.changes = []
  noted : s.memDocs.addedOrRemoved = false

theorem Base.ok {ps c s} (h : Base ps c s) : Ok s.vfs := by
  obtain ⟨ops, h⟩ := h.reach
  exact run_ok h

theorem known_iff {ps c s} (h : Base ps c s) (id : Nat) : Known s id ↔ ∃ p, s.vfs.filePath id = some p := by
  unfold Known Vfs.filePath
  rw [h.ok.len]
  constructor
  · intro hl; exact ⟨_, List.getElem?_eq_getElem hl⟩
  · rintro ⟨p, hp⟩; exact (List.getElem?_eq_some_iff.1 hp).1

theorem real_path {ps c s} (h : Base ps c s) (id : Nat) (hk : Known s id) :
    ∃ p, s.vfs.filePath id = some p ∧ isReal p = true := by
  obtain ⟨p, hp⟩ := (known_iff h id).1 hk
  refine ⟨p, hp, ?_⟩
  obtain ⟨b, _, rfl⟩ := h.within p (List.mem_of_getElem? hp)
  rfl

/-- The files of a store that are live, by id. -/
theorem fileId_of_at {ps c s} (h : Base ps c s) {p : VfsPath} {t : Text} (ht : at_ s.vfs p = some t) :
    ∃ id, s.vfs.fileId p = some (some id) ∧ s.vfs.data[id]?.join = some t ∧ Known s id ∧
      s.vfs.fileContents id = some t := by
  unfold at_ at ht
  cases hi : indexOf p s.vfs.interner with
  | none => rw [hi] at ht; simp at ht
  | some id =>
    rw [hi] at ht
    simp only at ht
    refine ⟨id, ?_, ht, ?_, ?_⟩
    · rw [fileId_eq _ h.ok, hi]; simp [at_, hi, ht]
    · have := (List.getElem?_eq_some_iff.1 (indexOf_some hi)).1
      unfold Known; rw [h.ok.len]; exact this
    · rw [fileContents_eq]; exact ht

/-! ## `process_changes` -/

theorem collectChanges_spec (v : Vfs VfsPath Text) (recs : List ChangedFile) (endings : AMap Nat LineEndings)
    (files : List (Nat × Option Text)) (st : Bool)
    (h : ∀ r ∈ recs, r.changeKind ≠ .delete ∧ (∃ p, v.filePath r.fileId = some p ∧ isReal p = true) ∧
      ∃ t, v.data[r.fileId]?.join = some t) :
    ∃ e', collectChanges v recs endings files st = some (e',
        files ++ recs.map (fun r => (r.fileId, (v.data[r.fileId]?.join).map (fun t => (normalize t).1))),
        st || recs.any (fun r => r.changeKind == .create)) ∧
      ∀ id, (e'.get id).isSome ↔ (endings.get id).isSome ∨ ∃ r ∈ recs, r.fileId = id := by
  induction recs generalizing endings files st with
  | nil => exact ⟨endings, by simp [collectChanges], by simp⟩
  | cons r rs ih =>
    obtain ⟨h1, ⟨p, hp, hr⟩, t, ht⟩ := h r (by simp)
    obtain ⟨e', he1, he2⟩ := ih (endings.insert r.fileId (normalize t).2)
      (files ++ [(r.fileId, some (normalize t).1)]) (st || (isReal p && r.isCreatedOrDeleted))
      (fun x hx => h x (by simp [hx]))
    refine ⟨e', ?_, ?_⟩
    · have hex : r.exists = true := by unfold ChangedFile.exists; simpa using h1
      rw [collectChanges, hp]
      simp only [hex, if_true]
      rw [fileContents_eq, ht]
      simp only
      rw [he1]
      simp only [List.append_assoc, List.map_cons, ht, Option.map_some, List.singleton_append, List.any_cons, hr,
        Bool.true_and]
      have : r.isCreatedOrDeleted = (r.changeKind == .create) := by
        unfold ChangedFile.isCreatedOrDeleted
        cases hk : r.changeKind <;> first | rfl | exact absurd hk h1
      rw [this, Bool.or_assoc]
    · intro id
      rw [he2, AMap.get_insert]
      by_cases hid : r.fileId = id
      · simp [hid]
      · simp [hid]

theorem lastTextIn_records (v : Vfs VfsPath Text) (recs : List ChangedFile) (init : Option Text) (id : Nat)
    (g : Nat → Option Text) (hg : ∀ r ∈ recs, (g r.fileId).isSome) :
    lastTextIn init id (recs.map (fun r => (r.fileId, g r.fileId))) =
      if ∃ r ∈ recs, r.fileId = id then g id else init := by
  induction recs generalizing init with
  | nil => simp [lastTextIn]
  | cons r rs ih =>
    simp only [List.map_cons, lastTextIn]
    rw [ih _ (fun x hx => hg x (by simp [hx]))]
    by_cases h1 : ∃ x ∈ rs, x.fileId = id
    · rw [if_pos h1, if_pos]
      obtain ⟨x, hx, he⟩ := h1
      exact ⟨x, by simp [hx], he⟩
    · rw [if_neg h1]
      by_cases h2 : r.fileId = id
      · have := hg r (by simp)
        obtain ⟨t, ht⟩ := Option.isSome_iff_exists.1 this
        rw [if_pos h2, if_pos ⟨r, by simp, h2⟩, ← h2, ht]; rfl
      · rw [if_neg h2, if_neg]
        rintro ⟨x, hx, he⟩
        rcases List.mem_cons.1 hx with rfl | hx
        · exact h2 he
        · exact h1 ⟨x, hx, he⟩

/-- A write to the database only removes or finishes jobs. -/
theorem mem_cancelRunning {env endings cuts} (jobs : List Job) (i : Nat) (j : Job)
    (h : j ∈ cancelRunning env endings cuts jobs i) :
    ∃ t, j = .finished t ∧ (Job.finished t ∈ jobs ∨ ∃ subs snap n, Job.running subs snap ∈ jobs ∧
      compute env endings snap (subs.take n) = some t) := by
  induction jobs generalizing i with
  | nil => simp [cancelRunning] at h
  | cons a jobs ih =>
    cases a with
    | finished t =>
      simp only [cancelRunning, List.mem_cons] at h
      rcases h with rfl | h
      · exact ⟨t, rfl, Or.inl (by simp)⟩
      · obtain ⟨t', rfl, h' | ⟨subs, snap, n, h1, h2⟩⟩ := ih _ h
        · exact ⟨t', rfl, Or.inl (by simp [h'])⟩
        · exact ⟨t', rfl, Or.inr ⟨subs, snap, n, by simp [h1], h2⟩⟩
    | running subs snap =>
      simp only [cancelRunning] at h
      have hrec : j ∈ cancelRunning env endings cuts jobs (i + 1) → ∃ t, j = .finished t ∧
          (Job.finished t ∈ Job.running subs snap :: jobs ∨ ∃ subs' snap' n,
            Job.running subs' snap' ∈ Job.running subs snap :: jobs ∧
            compute env endings snap' (subs'.take n) = some t) := by
        intro hm
        obtain ⟨t', rfl, h' | ⟨subs, snap, n, h1, h2⟩⟩ := ih _ hm
        · exact ⟨t', rfl, Or.inl (by simp [h'])⟩
        · exact ⟨t', rfl, Or.inr ⟨subs, snap, n, by simp [h1], h2⟩⟩
      split at h
      · exact hrec h
      · rename_i t ht
        rcases List.mem_cons.1 h with rfl | h
        · exact ⟨t, rfl, Or.inr ⟨subs, snap, cuts i, by simp, ht⟩⟩
        · exact hrec h

/-- The files of a computed result are those asked for. -/
theorem compute_files {env : Env} {endings : AMap Nat LineEndings} {snap : Db} (subs : List Nat) {t : Task}
    (h : compute env endings snap subs = some t) :
    ∃ r, t = .diagnostics r ∧ r.map (·.1) = subs ∧
      ∀ x ∈ r, ∃ text, snap.fileText.get x.1 = some text ∧ env.diagnostics text = some x.2 := by
  unfold compute at h
  cases hm : subs.mapM (publishDiagnostics env endings snap) with
  | none => rw [hm] at h; simp at h
  | some r =>
    rw [hm] at h
    simp at h
    subst h
    refine ⟨r, rfl, ?_⟩
    induction subs generalizing r with
    | nil => simp at hm; subst hm; simp
    | cons f fs ih =>
      rw [List.mapM_cons] at hm
      cases hp : publishDiagnostics env endings snap f with
      | none => rw [hp] at hm; simp at hm
      | some x =>
        rw [hp] at hm
        cases hq : fs.mapM (publishDiagnostics env endings snap) with
        | none => rw [hq] at hm; simp at hm
        | some r' =>
          rw [hq] at hm
          simp at hm
          subst hm
          obtain ⟨i1, i2⟩ := ih r' hq
          unfold publishDiagnostics at hp
          split at hp
          · simp at hp
          · split at hp
            · simp at hp
            · rename_i text htext
              split at hp
              · simp at hp
              · rename_i ds hds
                simp at hp
                subst hp
                refine ⟨by simp [i1], ?_⟩
                intro x hx
                rcases List.mem_cons.1 hx with rfl | hx
                · exact ⟨text, htext, hds⟩
                · exact i2 x hx

theorem jobOk_cancelRunning {env endings cuts} {s s' : State} (hk : ∀ id, Known s id → Known s' id)
    (h : ∀ j ∈ s.jobs, JobOk s j) (j : Job) (hj : j ∈ cancelRunning env endings cuts s.jobs 0) : JobOk s' j := by
  obtain ⟨t, rfl, h1 | ⟨subs, snap, n, h1, h2⟩⟩ := mem_cancelRunning _ _ _ hj
  · have := h _ h1
    cases t with
    | response _ _ => exact this
    | diagnostics r => exact fun x hx => hk _ (this x hx)
  · obtain ⟨r, rfl, h3, _⟩ := compute_files _ h2
    intro x hx
    apply hk
    have : x.1 ∈ subs.take n := by rw [← h3]; exact List.mem_map.2 ⟨x, hx, rfl⟩
    exact h _ h1 x.1 (List.mem_of_mem_take this)

/-- Nothing in the pool is disturbed when the database does not change. -/
theorem jobOk_mono {s s' : State} (hk : ∀ id, Known s id → Known s' id) {j : Job} (h : JobOk s j) : JobOk s' j := by
  cases j with
  | running subs snap => exact fun f hf => hk _ (h f hf)
  | finished t => cases t with
    | response _ _ => exact h
    | diagnostics r => exact fun x hx => hk _ (h x hx)

theorem taskOk_mono {s s' : State} (hk : ∀ id, Known s id → Known s' id) {t : Task} (h : TaskOk s t) : TaskOk s' t := by
  cases t with
  | response _ _ => exact h
  | diagnostics r => exact fun x hx => hk _ (h x hx)

/-- The roots made from the store list every live file. -/
theorem partition_lists (cfg : SourceRootConfig) (hc : ∃ roots, build roots = some cfg.fsc) (v : Vfs VfsPath Text)
    (hv : ∃ ops, Vfs.run ops = some v) :
    ∃ roots, cfg.partition v = some roots ∧
      (∀ id p, v.fileId p = some (some id) → ∃ r ∈ roots, id ∈ r.iter) ∧
      (∀ (k : Nat) r, roots[k]? = some r → (r.isLibrary = !cfg.localFilesets.contains k) ∧
        ∀ id, id ∈ r.iter ↔ ∃ p, v.fileId p = some (some id) ∧ cfg.fsc.classify p = k) := by
  obtain ⟨roots, hroots⟩ := hc
  obtain ⟨ops, hops⟩ := hv
  obtain ⟨sets, h1, h2, h3⟩ := partition_exact roots cfg.fsc hroots ops v hops
  refine ⟨sets.mapIdx (fun idx set => ⟨!cfg.localFilesets.contains idx, set⟩), ?_, ?_, ?_⟩
  · unfold SourceRootConfig.partition; rw [h1]
  · intro id p hp
    have hlt := classify_lt roots cfg.fsc hroots p
    have hn : cfg.fsc.nFileSets = roots.length + 1 := by
      obtain ⟨c', hb, hn, _⟩ := build_spec roots
      rw [hb] at hroots; simp at hroots; rw [← hroots]; exact hn
    have hl : cfg.fsc.classify p < sets.length := by omega
    refine ⟨⟨!cfg.localFilesets.contains (cfg.fsc.classify p), sets[cfg.fsc.classify p]⟩, ?_, ?_⟩
    · exact List.mem_of_getElem? (i := cfg.fsc.classify p) (by simp [List.getElem?_mapIdx, hl])
    · have := ((h3 _ _ (List.getElem?_eq_getElem hl)).1 id p).2 ⟨hp, rfl⟩
      exact (AMap.mem_keys _ _).2 (by
        unfold FileSet.pathForFile at this; rw [this]; rfl)
  · intro k r hk
    rw [List.getElem?_mapIdx] at hk
    cases hs : sets[k]? with
    | none => rw [hs] at hk; simp at hk
    | some set =>
      rw [hs] at hk
      simp at hk
      subst hk
      refine ⟨by simp, ?_⟩
      intro id
      have h4 := (h3 k set hs).1 id
      simp only [SourceRoot.iter, FileSet.iter, AMap.mem_keys]
      constructor
      · intro hm
        obtain ⟨p, hp⟩ := Option.isSome_iff_exists.1 hm
        exact ⟨p, (h4 p).1 hp⟩
      · rintro ⟨p, hp⟩
        have := (h4 p).2 hp
        unfold FileSet.pathForFile at this; rw [this]; rfl

theorem live_fileId {ps c s} (h : Base ps c s) {id : Nat} (hk : Known s id) :
    ∃ p, s.vfs.filePath id = some p ∧ s.vfs.fileId p = some (some id) := by
  obtain ⟨p, hp⟩ := (known_iff h id).1 hk
  refine ⟨p, hp, ?_⟩
  obtain ⟨t, ht⟩ := h.live id hk
  have hi := indexOf_of_getElem h.ok.nodup hp
  rw [fileId_eq _ h.ok, hi]
  simp [at_, hi, ht]

/-- `process_changes` does not panic and brings the database up to date. -/
theorem processChanges_ok {ps c s} (env : Env) (cuts : Nat → Nat) (h : Base ps c s) :
    ∃ s' b, s.processChanges env cuts = some (s', b) ∧ Base ps c s' ∧ s'.vfs.changes = [] ∧
      s'.diagnostics = s.diagnostics ∧ s'.memDocs = s.memDocs ∧ s'.channel = s.channel ∧ s'.out = s.out ∧
      s'.shutdownRequested = s.shutdownRequested ∧ s'.sourceRootConfig = s.sourceRootConfig ∧
      s'.vfs = s.vfs.takeChanges.1 ∧ (b = true ↔ s.vfs.changes ≠ []) ∧
      (b = false → s'.jobs = s.jobs ∧ s'.db = s.db ∧ s'.lineEndings = s.lineEndings) := by
  have hreach : ∃ ops, Vfs.run ops = some s.vfs.takeChanges.1 := by
    obtain ⟨ops, ho⟩ := h.reach
    refine ⟨ops ++ [.take], ?_⟩
    rw [run_append, ho]
    simp [Vfs.step]
  unfold State.processChanges
  by_cases hch : s.vfs.changes = []
  · have ev : s.vfs.takeChanges = (s.vfs, []) := by
      unfold Vfs.takeChanges
      cases hv : s.vfs; rw [hv] at hch; simp at hch; simp [hch]
    refine ⟨s, false, by simp [ev], h, hch, rfl, rfl, rfl, rfl, rfl, rfl, by rw [ev], by simp [hch],
      fun _ => ⟨rfl, rfl, rfl⟩⟩
  · have hrecs : ∀ r ∈ s.vfs.changes, r.changeKind ≠ .delete ∧
        (∃ p, s.vfs.takeChanges.1.filePath r.fileId = some p ∧ isReal p = true) ∧
        ∃ t, s.vfs.takeChanges.1.data[r.fileId]?.join = some t := by
      intro r hr
      obtain ⟨h1, h2⟩ := h.recs r hr
      exact ⟨h1, real_path h _ h2, h.live _ h2⟩
    obtain ⟨e', hc1, hc2⟩ := collectChanges_spec s.vfs.takeChanges.1 s.vfs.changes s.lineEndings [] false hrecs
    have hemp : s.vfs.takeChanges.2.isEmpty = false := by
      simp only [Vfs.takeChanges]; cases hx : s.vfs.changes with
        | nil => exact absurd hx hch
        | cons a l => rfl
    obtain ⟨roots, hp1, hp2, hp3⟩ := partition_lists s.sourceRootConfig h.cfg s.vfs.takeChanges.1 hreach
    -- the roots given to the database
    generalize hst : (s.vfs.changes.any (fun r => r.changeKind == .create)) = st at hc1
    have hr : (if (false || st) = true then (s.sourceRootConfig.partition s.vfs.takeChanges.1).map some
        else some none) = some (if st then some roots else none) := by
      cases st
      · rfl
      · simp [hp1]
    have hlist : ∀ id, Known s id → ∃ r ∈ roots, id ∈ r.iter := by
      intro id hk
      obtain ⟨p, _, hp⟩ := live_fileId h hk
      exact hp2 id p hp
    have htot := applyChange_total s.db
      ⟨if st then some roots else none, s.vfs.changes.map
        (fun r => (r.fileId, (s.vfs.takeChanges.1.data[r.fileId]?.join).map (fun t => (normalize t).1)))⟩
      h.rootsOk (by
        intro x hx
        obtain ⟨r, hr, rfl⟩ := List.mem_map.1 hx
        have hk := (h.recs r hr).2
        cases hst' : st with
        | true => exact Or.inr ⟨roots, rfl, hlist _ hk⟩
        | false =>
          left
          rcases h.rooted _ hk with ⟨r', hr', _, hcr⟩ | hroot
          · rw [hst'] at hst
            have := List.any_eq_false.1 hst r' hr'
            simp [hcr] at this
          · obtain ⟨p, root, _, e, _⟩ := hroot
            show (s.db.fileSourceRoot.get r.fileId).isSome = true
            rw [e]; rfl)
    obtain ⟨db', hdb⟩ := htot
    refine ⟨{ s with
        vfs := s.vfs.takeChanges.1
        lineEndings := e'
        db := db'
        jobs := cancelRunning env e' cuts s.jobs 0 }, true, ?_, ?_, rfl, rfl, rfl, rfl, rfl, rfl, rfl, rfl,
        by simp [hch], by simp⟩
    · simp only [hemp, Bool.false_eq_true, if_false]
      have : s.vfs.takeChanges.2 = s.vfs.changes := rfl
      rw [this, hc1]
      simp only [hr, List.nil_append]
      rw [hdb]
    · obtain ⟨d1, d2, d3⟩ := applyChange_spec hdb
      have hroots' : ∀ f k, db'.fileSourceRoot.get f = some k → (db'.sourceRoot.get k).isSome := by
        intro f k hk
        cases hst' : st with
        | false =>
          obtain ⟨e1, e2, _, _⟩ := d2 (by simp [hst'])
          rw [e1] at hk; rw [e2]; exact h.rootsOk f k hk
        | true =>
          obtain ⟨e1, e2, e3, _, _⟩ := d3 roots (by simp [hst'])
          rw [e1]
          split
          · rename_i hlt; simp [hlt]
          · rename_i hlt
            by_cases hl : ∃ r ∈ roots, f ∈ r.iter
            · -- then the root is one of the new ones
              exfalso
              have : ∃ k', ListedLast roots f k' := by
                obtain ⟨r, hr, hm⟩ := hl
                obtain ⟨j, hj, rfl⟩ := List.getElem_of_mem hr
                refine Classical.byContradiction fun hno => ?_
                have up : ∀ n : Nat, ∃ i, ∃ (hi : i < roots.length), f ∈ roots[i].iter ∧ j + n ≤ i := by
                  intro n
                  induction n with
                  | zero => exact ⟨j, hj, hm, by omega⟩
                  | succ n ihn =>
                    obtain ⟨i, hi, hmi, hle⟩ := ihn
                    refine Classical.byContradiction fun hno2 => hno ⟨i, ⟨_, List.getElem?_eq_getElem hi, hmi⟩, ?_⟩
                    intro i' r' hi' hr'
                    refine Classical.byContradiction fun hlt2 => hno2 ?_
                    obtain ⟨hi'', rfl⟩ := List.getElem?_eq_some_iff.1 hi'
                    exact ⟨i', hi'', hr', by omega⟩
                obtain ⟨i, hi, _, hle⟩ := up roots.length
                omega
              obtain ⟨k', hk'⟩ := this
              have := e2 f k' hk'
              rw [this] at hk
              simp at hk
              subst hk
              obtain ⟨⟨r, hr, _⟩, _⟩ := hk'
              exact hlt (List.getElem?_eq_some_iff.1 hr).1
            · rw [e3 f (fun r hr hm => hl ⟨r, hr, hm⟩)] at hk
              exact h.rootsOk f k hk
      refine
        { reach := hreach
          within := h.within
          live := h.live
          docs := h.docs
          docsReal := h.docsReal
          text := h.text
          rootsOk := hroots'
          cfg := h.cfg
          jobs := fun j hj => jobOk_cancelRunning (s := s) (fun _ hk => hk) h.jobs j hj
          channel := fun t ht => taskOk_mono (s := s) (fun _ hk => hk) (h.channel t ht)
          reported := h.reported
          incoming := h.incoming
          outgoing := h.outgoing
          recs := by simp [Vfs.takeChanges]
          synced := ?_
          rooted := ?_ }
      · intro id hk
        right
        have hk' : Known s id := hk
        refine ⟨?_, ?_⟩
        · intro t ht
          rw [d1]
          simp only
          rw [lastTextIn_records s.vfs.takeChanges.1 s.vfs.changes _ id
            (fun i => (s.vfs.takeChanges.1.data[i]?.join).map (fun t => (normalize t).1))
            (by intro r hr; obtain ⟨t, ht⟩ := (hrecs r hr).2.2; simp [ht])]
          split
          · show Option.map _ (s.vfs.data[id]?.join) = _
            have : s.vfs.data[id]?.join = some t := ht
            rw [this]; rfl
          · rename_i hno
            rcases h.synced id hk' with hyes | ⟨h1, _⟩
            · exact absurd hyes hno
            · exact h1 t ht
        · rw [hc2]
          rcases h.synced id hk' with hyes | ⟨_, h2⟩
          · exact Or.inr hyes
          · exact Or.inl h2
      · intro id hk
        right
        have hk' : Known s id := hk
        cases hst' : st with
        | false =>
          obtain ⟨e1, e2, _, _⟩ := d2 (by simp [hst'])
          rcases h.rooted _ hk' with ⟨r', hr', _, hcr⟩ | hroot
          · rw [hst'] at hst
            have := List.any_eq_false.1 hst r' hr'
            simp [hcr] at this
          · unfold RightRoot at hroot ⊢
            simp only [e1, e2]
            exact hroot
        | true =>
          obtain ⟨e1, e2, e3, _, _⟩ := d3 roots (by simp [hst'])
          obtain ⟨r, hr, hm⟩ := hlist id hk'
          obtain ⟨j, hj, rfl⟩ := List.getElem_of_mem hr
          have hj' : roots[j]? = some roots[j] := List.getElem?_eq_getElem hj
          obtain ⟨p1, q1, c1⟩ := ((hp3 j _ hj').2 id).1 hm
          -- the only root that lists it is recorded
          have hlast : ListedLast roots id j := by
            refine ⟨⟨_, hj', hm⟩, ?_⟩
            intro i r' hi hr'
            obtain ⟨p2, q2, c2⟩ := ((hp3 i r' hi).2 id).1 hr'
            obtain ⟨ops, ho⟩ := hreach
            have : p1 = p2 := id_is_never_reused ops [] _ _ ho (by simpa using ho) p1 p2 id q1 q2
            subst this
            omega
          have hpath : s.vfs.filePath id = some p1 := by
            have ok' : Ok s.vfs.takeChanges.1 := by obtain ⟨ops, ho⟩ := hreach; exact run_ok ho
            exact indexOf_some (fileId_some ok' q1).1
          refine ⟨p1, roots[j], hpath, ?_, ?_, ?_⟩
          · simp only [c1]; exact e2 id j hlast
          · simp only [c1]; rw [e1, if_pos hj]; exact hj'
          · simp only [c1]; exact (hp3 j _ hj').1

end Verif.Server
