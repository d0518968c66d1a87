import Verif.Server.Lemmas
import Verif.Diagnostics.Props

/-! One turn of the event loop keeps the invariant. -/

set_option autoImplicit false

namespace Verif.Server

open Verif.FileSet Verif.Vfs Verif.Db Verif.Diagnostics Verif.LineEndings Verif.Server.Spec

/-- What `publish` sends for a file whose root is known: nothing for library files. -/
def pubOut (s : State) (f : Nat) : Option Out :=
  match (s.db.fileSourceRoot.get f).bind s.db.sourceRoot.get, s.vfs.filePath f with
  | some root, some path =>
    if root.isLibrary then none
    else some (.publishDiagnostics path (s.diagnostics.diagnosticsFor f) (s.memDocs.docs.get path))
  | _, _ => none

theorem publish_spec (s : State) (f : Nat) (k : Nat) (root : SourceRoot) (path : VfsPath)
    (h1 : s.db.fileSourceRoot.get f = some k) (h2 : s.db.sourceRoot.get k = some root)
    (h3 : s.vfs.filePath f = some path) (h4 : isReal path = true) :
    s.publish f = some { s with out := s.out ++ (pubOut s f).toList } := by
  unfold State.publish pubOut
  rw [h1]
  simp only [h2, h3, Option.bind_some]
  by_cases hl : root.isLibrary = true
  · simp [hl]
  · simp [hl, h4, State.send]

theorem pubOut_out (s : State) (o : List Out) (f : Nat) : pubOut { s with out := o } f = pubOut s f := rfl

theorem publishFold_spec (files : List Nat) (s : State)
    (h : ∀ f ∈ files, ∃ k root path, s.db.fileSourceRoot.get f = some k ∧ s.db.sourceRoot.get k = some root ∧
      s.vfs.filePath f = some path ∧ isReal path = true) :
    files.foldlM State.publish s = some { s with out := s.out ++ files.filterMap (pubOut s) } := by
  induction files generalizing s with
  | nil => simp
  | cons f fs ih =>
    obtain ⟨k, root, path, h1, h2, h3, h4⟩ := h f (by simp)
    rw [List.foldlM_cons, publish_spec s f k root path h1 h2 h3 h4]
    simp only [Option.bind_eq_bind, Option.bind_some]
    rw [ih]
    · have e : (pubOut { s with out := s.out ++ (pubOut s f).toList }) = pubOut s := by
        funext g; exact pubOut_out s _ g
      rw [e]
      cases hp : pubOut s f <;> simp [hp]
    · intro g hg; exact h g (by simp [hg])

theorem mapM_total' {α β : Type} (f : α → Option β) (l : List α) (h : ∀ a ∈ l, ∃ b, f a = some b) :
    ∃ r, l.mapM f = some r ∧ (∀ b ∈ r, ∃ a ∈ l, f a = some b) ∧ (∀ a ∈ l, ∃ b ∈ r, f a = some b) := by
  induction l with
  | nil => exact ⟨[], by simp, by simp, by simp⟩
  | cons a l ih =>
    obtain ⟨b, hb⟩ := h a (by simp)
    obtain ⟨r, hr, h1, h2⟩ := ih (fun x hx => h x (by simp [hx]))
    refine ⟨b :: r, by simp [List.mapM_cons, hb, hr], ?_, ?_⟩
    · intro y hy
      rcases List.mem_cons.1 hy with rfl | hy
      · exact ⟨a, by simp, hb⟩
      · obtain ⟨x, hx, hf⟩ := h1 y hy; exact ⟨x, by simp [hx], hf⟩
    · intro x hx
      rcases List.mem_cons.1 hx with rfl | hx
      · exact ⟨b, by simp, hb⟩
      · obtain ⟨y, hy, hf⟩ := h2 x hx; exact ⟨y, by simp [hy], hf⟩

/-- A document in `mem_docs` is open at the client. -/
theorem doc_of_key {ps c s} (h : Base ps c s) {p : VfsPath} (hp : p ∈ s.memDocs.docs.keys) :
    ∃ b d, p = .pathBuf b ∧ c.docs b = some d := by
  have hr := h.docsReal p hp
  cases p with
  | virtualPath b => simp [isReal] at hr
  | pathBuf b =>
    have := (AMap.mem_keys _ _).1 hp
    rw [h.docs] at this
    cases hd : c.docs b with
    | none => rw [hd] at this; simp at this
    | some d => exact ⟨b, d, rfl, hd⟩

/-- The end of a turn of the loop. -/
theorem afterEvent_ok {ps c s} (env : Env) (cuts : Nat → Nat) (h : Base ps c s) :
    ∃ s1 b subs s', s.processChanges env cuts = some (s1, b) ∧ s.afterEvent env cuts = some s' ∧ Inv ps c s' ∧
      s'.vfs = s1.vfs ∧ s'.db = s1.db ∧ s'.lineEndings = s1.lineEndings ∧ s'.channel = s.channel ∧
      s'.shutdownRequested = s.shutdownRequested ∧ s'.memDocs.docs = s.memDocs.docs ∧
      s'.sourceRootConfig = s.sourceRootConfig ∧
      s.memDocs.docs.keys.mapM (subscription s1.vfs) = some subs ∧
      s'.jobs = (if b || s.memDocs.addedOrRemoved then s1.jobs ++ [.running subs s1.db] else s1.jobs) ∧
      s'.diagnostics = { s.diagnostics with changes := [] } ∧
      s'.out = s.out ++ s.diagnostics.changes.filterMap (pubOut s') := by
  obtain ⟨s1, b, hp, hb1, hdr, hdiag, hmem, hchan, hout, hsd, hsrc, hvfs, hb, hsame⟩ := processChanges_ok env cuts h
  have hsub : ∀ p ∈ s.memDocs.docs.keys, ∃ id, subscription s1.vfs p = some id := by
    intro p hpk
    rw [← hmem] at hpk
    obtain ⟨by', d, rfl, hd⟩ := doc_of_key hb1 hpk
    obtain ⟨id, hid, _⟩ := fileId_of_at hb1 (hb1.text by' d hd)
    exact ⟨id, by unfold subscription; rw [hid]⟩
  obtain ⟨subs, hs1, hs2, _⟩ := mapM_total' _ _ hsub
  have hknownsubs : ∀ f ∈ subs, Known s1 f := by
    intro f hf
    obtain ⟨p, _, hpf⟩ := hs2 f hf
    unfold subscription at hpf
    split at hpf
    · rename_i id hid
      simp at hpf
      subst hpf
      obtain ⟨hi, _⟩ := fileId_some hb1.ok hid
      have := (List.getElem?_eq_some_iff.1 (indexOf_some hi)).1
      unfold Known; rw [hb1.ok.len]; exact this
    · simp at hpf
  -- the state before publishing
  let s2 : State := { s1 with
    memDocs := { s1.memDocs with addedOrRemoved := false }
    jobs := if b || s.memDocs.addedOrRemoved then s1.jobs ++ [.running subs s1.db] else s1.jobs }
  have hs2base : Base ps c s2 :=
    { hb1 with
      jobs := by
        intro j hj
        simp only [s2] at hj
        split at hj
        · rcases List.mem_append.1 hj with hj | hj
          · exact jobOk_mono (s := s1) (fun _ hk => hk) (hb1.jobs j hj)
          · simp at hj; subst hj; exact hknownsubs
        · exact jobOk_mono (s := s1) (fun _ hk => hk) (hb1.jobs j hj)
      channel := fun t ht => taskOk_mono (s := s1) (fun _ hk => hk) (hb1.channel t ht) }
  have hupd : (match (if b || s1.memDocs.addedOrRemoved then
        State.updateDiagnostics { s1 with memDocs := { s1.memDocs with addedOrRemoved := false } }
      else some { s1 with memDocs := { s1.memDocs with addedOrRemoved := false } }) with
      | none => none
      | some s => s.publishAll) = s2.publishAll := by
    rw [hmem]
    by_cases hc : (b || s.memDocs.addedOrRemoved) = true
    · simp only [hc, if_true, State.updateDiagnostics]
      simp only [hs1]
      congr 1
      simp [s2, hmem, hc]
    · simp only [hc, Bool.false_eq_true, if_false]
      congr 1
      simp [s2, hmem, hc]
  have hrooted : ∀ f ∈ s2.diagnostics.changes, ∃ k root path, s2.db.fileSourceRoot.get f = some k ∧
      s2.db.sourceRoot.get k = some root ∧ s2.vfs.filePath f = some path ∧ isReal path = true := by
    intro f hf
    have hk := hs2base.reported f hf
    obtain ⟨path, hp1, hp2⟩ := real_path hs2base f hk
    rcases hs2base.rooted f hk with ⟨r, hr, _⟩ | hroot
    · have : s2.vfs.changes = [] := hdr
      rw [this] at hr; simp at hr
    · obtain ⟨p, root, _, e1, e2, _⟩ := hroot
      exact ⟨_, root, path, e1, e2, hp1, hp2⟩
  -- publishing
  let s3 : State := { s2 with
    diagnostics := { s2.diagnostics with changes := [] }
    out := s2.out ++ s2.diagnostics.changes.filterMap (pubOut { s2 with diagnostics := { s2.diagnostics with changes := [] } }) }
  have hpub : s2.publishAll = some s3 := by
    unfold State.publishAll Collection.takeChanges
    by_cases he : s2.diagnostics.changes = []
    · simp only [he, List.isEmpty_nil, if_true, s3, List.filterMap_nil, List.append_nil]
      congr 1
      have : ({ s2.diagnostics with changes := [] } : Collection) = s2.diagnostics := by
        cases hd : s2.diagnostics; rw [hd] at he; simp at he; simp [he]
      rw [this]
    · have hemp : s2.diagnostics.changes.isEmpty = false := by
        cases hx : s2.diagnostics.changes with
        | nil => exact absurd hx he
        | cons a l => rfl
      simp only [hemp, Bool.false_eq_true, if_false]
      exact publishFold_spec _ { s2 with diagnostics := { s2.diagnostics with changes := [] } } hrooted
  have hinv : Inv ps c s3 :=
    { hs2base with
      reported := by simp [s3]
      jobs := fun j hj => jobOk_mono (s := s2) (fun _ hk => hk) (hs2base.jobs j hj)
      channel := fun t ht => taskOk_mono (s := s2) (fun _ hk => hk) (hs2base.channel t ht)
      drained := hdr
      published := rfl
      noted := rfl }
  refine ⟨s1, b, subs, s3, hp, ?_, hinv, rfl, rfl, rfl, hchan, hsd, ?_, hsrc, hs1, rfl, ?_, ?_⟩
  · unfold State.afterEvent
    rw [hp]
    simp only
    exact hupd.trans hpub
  · show s1.memDocs.docs = _; rw [hmem]
  · show ({ s1.diagnostics with changes := [] } : Collection) = _; rw [hdiag]
  · have e1 : s3.out = s1.out ++ s1.diagnostics.changes.filterMap (pubOut s3) := rfl
    rw [e1, hout, hdiag]

/-! ## Messages -/

/-- Writing a document into the store. -/
theorem base_set {ps c s} (h : Base ps c s) (p : Bytes) (hp : p ∈ ps) (hps : ps.length ≤ maxId) (v : Int) (t : Text)
    (m : MemDocs) (hm : m.docs = s.memDocs.docs.insert (.pathBuf p) v) :
    ∃ vfs b, s.vfs.setFileContents (.pathBuf p) (some t) = some (vfs, b) ∧
      Base ps (c.set p (some ⟨v, t⟩)) { s with memDocs := m, vfs := vfs } := by
  have hbound : VfsPath.pathBuf p ∈ s.vfs.interner ∨ s.vfs.interner.length < maxId := by
    by_cases hi : VfsPath.pathBuf p ∈ s.vfs.interner
    · exact Or.inl hi
    · right
      have hle : (VfsPath.pathBuf p :: s.vfs.interner).length ≤ (ps.map VfsPath.pathBuf).length := by
        apply List.Nodup.length_le_of_subset (List.nodup_cons.2 ⟨hi, h.ok.nodup⟩)
        intro x hx
        rcases List.mem_cons.1 hx with rfl | hx
        · exact List.mem_map.2 ⟨p, hp, rfl⟩
        · obtain ⟨b, hb, rfl⟩ := h.within x hx
          exact List.mem_map.2 ⟨b, hb, rfl⟩
      simp at hle
      omega
  obtain ⟨⟨vfs, b⟩, hset⟩ := set_total s.vfs h.ok (.pathBuf p) (some t) hbound
  obtain ⟨k1, k2, k3, k4, k5, k6⟩ := set_spec h.ok hset
  refine ⟨vfs, b, hset, ?_⟩
  have hlen : s.vfs.data.length ≤ vfs.data.length := by
    rw [h.ok.len, k1.len]; exact k2.length_le
  have hidx : ∀ id q, vfs.filePath id = some q → indexOf q vfs.interner = some id :=
    fun id q hq => indexOf_of_getElem k1.nodup hq
  have hjoin : ∀ id q, vfs.filePath id = some q → vfs.data[id]?.join = at_ vfs q := by
    intro id q hq; unfold at_; rw [hidx id q hq]
  have hjoin0 : ∀ id q, s.vfs.filePath id = some q → s.vfs.data[id]?.join = at_ s.vfs q := by
    intro id q hq; unfold at_; rw [indexOf_of_getElem h.ok.nodup hq]
  have hpath : ∀ id, id < vfs.data.length → ∃ q, vfs.filePath id = some q := by
    intro id hid; rw [k1.len] at hid; exact ⟨_, List.getElem?_eq_getElem hid⟩
  -- a file that is new or written has a record, any other is as before
  have hcases : ∀ id, id < vfs.data.length →
      (∃ r ∈ vfs.changes, r.fileId = id ∧ (¬ id < s.vfs.data.length → r.changeKind = .create)) ∨
      (id < s.vfs.data.length ∧ vfs.data[id]?.join = s.vfs.data[id]?.join) := by
    intro id hid
    obtain ⟨q, hq⟩ := hpath id hid
    cases hk : kindOf (at_ s.vfs (.pathBuf p)) (some t) with
    | none =>
      obtain ⟨_, _, e⟩ := k6 hk
      refine Or.inr ⟨?_, e id⟩
      -- the written path was live already, so no path is new
      have hlive : at_ s.vfs (.pathBuf p) = some t := by
        cases ha : at_ s.vfs (.pathBuf p) with
        | none => rw [ha] at hk; simp [kindOf] at hk
        | some u => rw [ha] at hk; simp [kindOf] at hk; rw [hk]
      have hin : ∀ x ∈ vfs.interner, x ∈ s.vfs.interner := by
        intro x hx
        rcases set_interner h.ok hset hx with rfl | hx
        · unfold at_ at hlive
          cases hi : indexOf (VfsPath.pathBuf p) s.vfs.interner with
          | none => rw [hi] at hlive; simp at hlive
          | some j => exact List.mem_of_getElem? (indexOf_some hi)
        · exact hx
      have := List.Nodup.length_le_of_subset k1.nodup hin
      rw [h.ok.len]; rw [k1.len] at hid; omega
    | some k =>
      obtain ⟨_, i, e1, e2, e3⟩ := k5 k hk
      by_cases hii : id = i
      · left
        refine ⟨⟨i, k⟩, by simp [e2], hii.symm, ?_⟩
        intro hnew
        show k = .create
        -- a new id can only be that of a path that was not there
        cases ha : at_ s.vfs (.pathBuf p) with
        | none => rw [ha] at hk; simp [kindOf] at hk; exact hk.symm
        | some u =>
          exfalso
          unfold at_ at ha
          cases hi : indexOf (VfsPath.pathBuf p) s.vfs.interner with
          | none => rw [hi] at ha; simp at ha
          | some j =>
            have hj := prefix_getElem? k2 (indexOf_some hi)
            have : indexOf (VfsPath.pathBuf p) vfs.interner = some j := indexOf_of_getElem k1.nodup hj
            rw [e1] at this
            simp at this
            subst this
            apply hnew
            rw [hii, h.ok.len]
            exact (List.getElem?_eq_some_iff.1 (indexOf_some hi)).1
      · right
        refine ⟨?_, by rw [e3, if_neg hii]⟩
        have hqm : q ∈ vfs.interner := List.mem_of_getElem? hq
        rcases set_interner h.ok hset hqm with rfl | hqs
        · have := hidx id _ hq; rw [e1] at this; simp at this; exact absurd this.symm hii
        · obtain ⟨j, hj⟩ := List.getElem?_of_mem hqs
          have hj' := prefix_getElem? k2 hj
          have := hidx j q hj'
          rw [hidx id q hq] at this
          simp at this
          subst this
          rw [h.ok.len]
          exact (List.getElem?_eq_some_iff.1 hj).1
  have hchanges : ∀ r ∈ s.vfs.changes, r ∈ vfs.changes := by
    intro r hr
    cases hk : kindOf (at_ s.vfs (.pathBuf p)) (some t) with
    | none => rw [(k6 hk).2.1]; exact hr
    | some k => obtain ⟨_, i, _, e2, _⟩ := k5 k hk; rw [e2]; simp [hr]
  have hknown : ∀ id, Known s id → id < vfs.data.length := fun id hk => Nat.lt_of_lt_of_le hk hlen
  refine
    { reach := ?_
      within := ?_
      live := ?_
      docs := ?_
      docsReal := ?_
      text := ?_
      rootsOk := h.rootsOk
      cfg := h.cfg
      jobs := fun j hj => jobOk_mono (s := s) (s' := { s with memDocs := m, vfs := vfs }) hknown (h.jobs j hj)
      channel := fun t ht => taskOk_mono (s := s) (s' := { s with memDocs := m, vfs := vfs }) hknown (h.channel t ht)
      reported := fun f hf => hknown f (h.reported f hf)
      incoming := h.incoming
      outgoing := h.outgoing
      recs := ?_
      synced := ?_
      rooted := ?_ }
  · obtain ⟨ops, ho⟩ := h.reach
    refine ⟨ops ++ [.set (.pathBuf p) (some t)], ?_⟩
    rw [run_append, ho]
    simp [Vfs.step, hset]
  · intro q hq
    rcases set_interner h.ok hset hq with rfl | hq
    · exact ⟨p, hp, rfl⟩
    · exact h.within q hq
  · intro id hid
    obtain ⟨q, hq⟩ := hpath id hid
    show ∃ u, vfs.data[id]?.join = some u
    rw [hjoin id q hq, k4]
    by_cases hpq : VfsPath.pathBuf p = q
    · rw [if_pos hpq]; exact ⟨t, rfl⟩
    · rw [if_neg hpq]
      rcases set_interner h.ok hset (List.mem_of_getElem? hq) with rfl | hqs
      · exact absurd rfl hpq
      · obtain ⟨j, hj⟩ := List.getElem?_of_mem hqs
        rw [← hjoin0 j q hj]
        apply h.live
        unfold Known; rw [h.ok.len]; exact (List.getElem?_eq_some_iff.1 hj).1
  · intro q
    show m.docs.get _ = _
    rw [hm, AMap.get_insert]
    unfold Client.set
    by_cases hq : q = p
    · subst hq; simp
    · have : ¬ VfsPath.pathBuf p = VfsPath.pathBuf q := by simpa using Ne.symm hq
      simp only [this, if_false, hq]
      exact h.docs q
  · intro q hq
    have hq' : q ∈ AMap.keys m.docs := hq
    rw [hm, AMap.mem_keys, AMap.get_insert] at hq'
    by_cases hpq : VfsPath.pathBuf p = q
    · rw [← hpq]; rfl
    · rw [if_neg hpq] at hq'
      exact h.docsReal q ((AMap.mem_keys _ _).2 hq')
  · intro q d hd
    show at_ vfs _ = _
    rw [k4]
    unfold Client.set at hd
    simp only at hd
    by_cases hq : q = p
    · subst hq; simp at hd; subst hd; simp
    · have : ¬ VfsPath.pathBuf p = VfsPath.pathBuf q := by simpa using Ne.symm hq
      rw [if_neg this]
      rw [if_neg hq] at hd
      exact h.text q d hd
  · intro r hr
    have hr' : r ∈ vfs.changes := hr
    cases hk : kindOf (at_ s.vfs (.pathBuf p)) (some t) with
    | none =>
      rw [(k6 hk).2.1] at hr'
      exact ⟨(h.recs r hr').1, hknown _ (h.recs r hr').2⟩
    | some k =>
      obtain ⟨_, i, e1, e2, _⟩ := k5 k hk
      rw [e2] at hr'
      rcases List.mem_append.1 hr' with hr' | hr'
      · exact ⟨(h.recs r hr').1, hknown _ (h.recs r hr').2⟩
      · simp at hr'
        subst hr'
        refine ⟨?_, ?_⟩
        · rintro rfl
          cases ha : at_ s.vfs (.pathBuf p) with
          | none => rw [ha] at hk; simp [kindOf] at hk
          | some u => rw [ha] at hk; simp [kindOf] at hk
        · show i < vfs.data.length
          rw [k1.len]
          exact (List.getElem?_eq_some_iff.1 (indexOf_some e1)).1
  · intro id hid
    rcases hcases id hid with ⟨r, hr, hrid, _⟩ | ⟨hold, hj⟩
    · exact Or.inl ⟨r, hr, hrid⟩
    · rcases h.synced id hold with ⟨r, hr, hrid⟩ | ⟨h1, h2⟩
      · exact Or.inl ⟨r, hchanges r hr, hrid⟩
      · refine Or.inr ⟨fun u hu => h1 u ?_, h2⟩
        rw [← hj]; exact hu
  · intro id hid
    rcases Nat.lt_or_ge id s.vfs.data.length with hold | hnew
    · rcases h.rooted id hold with ⟨r, hr, hrid, hcr⟩ | hroot
      · exact Or.inl ⟨r, hchanges r hr, hrid, hcr⟩
      · obtain ⟨q, root, e0, e⟩ := hroot
        exact Or.inr ⟨q, root, prefix_getElem? k2 e0, e⟩
    · rcases hcases id hid with ⟨r, hr, hrid, hcr⟩ | ⟨hold, _⟩
      · exact Or.inl ⟨r, hr, hrid, hcr (by omega)⟩
      · omega

/-- Answering a request just registered leaves nothing pending. -/
theorem respond_registered (s : State) (id : RequestId) (reply : Reply) (h : s.incoming = []) :
    (s.registerRequest id).respond id reply = { s with out := s.out ++ [.response id reply] } := by
  unfold State.registerRequest State.respond
  simp [h, AMap.insert, AMap.erase, AMap.get, State.send]

theorem onRequest_spec (s : State) (id : RequestId) (m : Option Bool) (h : s.incoming = []) :
    s.onRequest id m = { s with
      shutdownRequested := s.shutdownRequested || m == some true
      out := s.out ++ [.response id (if s.shutdownRequested then .invalidRequest else
        match m with | some true => .ok | some false => .invalidParams | none => .methodNotFound)] } := by
  unfold State.onRequest
  have e : (s.registerRequest id).shutdownRequested = s.shutdownRequested := rfl
  simp only [e]
  cases hs : s.shutdownRequested with
  | true =>
    simp only [if_true]
    rw [respond_registered s id _ h]
    simp [← hs]
  | false =>
    simp only [Bool.false_eq_true, if_false]
    cases m with
    | none => simp only; rw [respond_registered s id _ h]; simp [← hs]
    | some b =>
      cases b
      · simp only; rw [respond_registered s id _ h]; simp [← hs]
      · simp only [State.registerRequest, State.respond]
        simp [h, AMap.insert, AMap.erase, AMap.get, State.send]

theorem cancel_spec (s : State) (id : RequestId) (h : s.incoming = []) : s.cancel id = s := by
  unfold State.cancel; rw [h]; simp [AMap.get]

/-- A message of the client keeps the invariant (before the end of the turn). -/
theorem onMessage_ok {ps c c' s m} (h : Base ps c s) (hps : ps.length ≤ maxId) (hs : Says c m c')
    (hopen : ∀ p v t, m = .didOpen (some p) v t → p ∈ ps) :
    ∃ s', s.onMessage m = some s' ∧ Base ps c' s' ∧ s'.diagnostics = s.diagnostics ∧ s'.channel = s.channel ∧
      s'.jobs = s.jobs ∧ s'.db = s.db ∧ s'.lineEndings = s.lineEndings ∧ s'.sourceRootConfig = s.sourceRootConfig := by
  cases hs with
  | shutdown id b =>
    refine ⟨_, rfl, ?_, ?_⟩ <;> rw [onRequest_spec _ _ _ h.incoming]
    · exact { h with }
    · exact ⟨rfl, rfl, rfl, rfl, rfl, rfl⟩
  | otherRequest id =>
    refine ⟨_, rfl, ?_, ?_⟩ <;> rw [onRequest_spec _ _ _ h.incoming]
    · exact { h with }
    · exact ⟨rfl, rfl, rfl, rfl, rfl, rfl⟩
  | cancel id =>
    exact ⟨s, by simp only [State.onMessage]; rw [cancel_spec _ _ h.incoming], h, rfl, rfl, rfl, rfl, rfl, rfl⟩
  | workDoneProgressCancel => exact ⟨s, rfl, h, rfl, rfl, rfl, rfl, rfl, rfl⟩
  | otherNotification => exact ⟨s, rfl, h, rfl, rfl, rfl, rfl, rfl, rfl⟩
  | response id hid =>
    refine ⟨{ s with outgoing := s.outgoing.filter (· ≠ id) }, ?_, ?_, rfl, rfl, rfl, rfl, rfl, rfl⟩
    · simp only [State.onMessage, State.completeRequest]
      rw [if_pos (by rw [h.outgoing]; exact hid)]
    · exact { h with outgoing := by simp only; rw [h.outgoing] }
  | openFile p v t =>
    obtain ⟨vfs, b, hset, hb⟩ := base_set h p (hopen p v t rfl) hps v t (s.memDocs.insert (.pathBuf p) v) rfl
    exact ⟨_, by simp only [State.onMessage, State.didOpen]; rw [hset], hb, rfl, rfl, rfl, rfl, rfl, rfl⟩
  | openOther v t => exact ⟨s, rfl, h, rfl, rfl, rfl, rfl, rfl, rfl⟩
  | changeFile p v d es t' hd hes =>
    have hin : p ∈ ps := by
      have hat := h.text p d hd
      unfold at_ at hat
      cases hi : indexOf (VfsPath.pathBuf p) s.vfs.interner with
      | none => rw [hi] at hat; simp at hat
      | some j =>
        obtain ⟨b, hb, he⟩ := h.within _ (List.mem_of_getElem? (indexOf_some hi))
        simp at he; subst he; exact hb
    obtain ⟨vfs, b, hset, hb⟩ := base_set h p hin hps v t'
      { s.memDocs with docs := s.memDocs.docs.insert (.pathBuf p) v } rfl
    obtain ⟨id, hid, _, _, hcont⟩ := fileId_of_at h (h.text p d hd)
    refine ⟨{ s with
      memDocs := { s.memDocs with docs := s.memDocs.docs.insert (.pathBuf p) v }, vfs := vfs }, ?_, hb, rfl, rfl, rfl, rfl, rfl, rfl⟩
    simp only [State.onMessage, State.didChange]
    have hget : s.memDocs.docs.get (VfsPath.pathBuf p) = some d.version := by rw [h.docs, hd]; rfl
    rw [hget]
    simp only [hid, hcont]
    rw [Edits.changes_follow_protocol _ _ _ hes]
    simp only [hset]
  | changeUnopened p v cs hn =>
    refine ⟨s, ?_, h, rfl, rfl, rfl, rfl, rfl, rfl⟩
    simp only [State.onMessage, State.didChange]
    rw [h.docs, hn]; rfl
  | changeOther v cs => exact ⟨s, rfl, h, rfl, rfl, rfl, rfl, rfl, rfl⟩
  | closeFile p =>
    refine ⟨_, rfl, ?_, rfl, rfl, rfl, rfl, rfl, rfl⟩
    refine { h with docs := ?_, docsReal := ?_, text := ?_, jobs := h.jobs, channel := h.channel }
    · intro q
      simp only [State.didClose, MemDocs.remove, AMap.get_erase, Client.set, VfsPath.pathBuf.injEq]
      by_cases hq : q = p
      · subst hq; simp
      · simp only [hq, Ne.symm hq, if_false]; exact h.docs q
    · intro q hq
      apply h.docsReal
      have hq' : q ∈ AMap.keys (AMap.erase s.memDocs.docs (.pathBuf p)) := hq
      rw [AMap.keys_erase] at hq'
      exact (List.mem_filter.1 hq').1
    · intro q d hd
      simp only [Client.set] at hd
      split at hd
      · simp at hd
      · exact h.text q d hd
  | closeOther => exact ⟨s, rfl, h, rfl, rfl, rfl, rfl, rfl, rfl⟩

/-! ## Tasks -/

theorem mem_changes_setNative (c : Collection) (f : Nat) (ds : List Diagnostic) (g : Nat)
    (h : g ∈ (c.setNativeDiagnostics f ds).changes) : g ∈ c.changes ∨ g = f := by
  unfold Collection.setNativeDiagnostics at h
  split at h
  · split at h
    · exact Or.inl h
    · exact (mem_insertSet.1 h).symm
  · exact (mem_insertSet.1 h).symm

theorem onTasks_ok {ps c s} (h : Base ps c s) : Base ps c s.onTasks ∧ s.onTasks.out = s.out ∧
    s.onTasks.vfs = s.vfs ∧ s.onTasks.db = s.db ∧ s.onTasks.jobs = s.jobs ∧ s.onTasks.memDocs = s.memDocs ∧
    s.onTasks.channel = [] ∧ s.onTasks.lineEndings = s.lineEndings ∧
    s.onTasks.sourceRootConfig = s.sourceRootConfig ∧ s.onTasks.shutdownRequested = s.shutdownRequested ∧
    s.onTasks.incoming = s.incoming := by
  unfold State.onTasks
  have gen : ∀ (ts : List Task) (s0 : State), Base ps c s0 → (∀ t ∈ ts, TaskOk s0 t) →
      Base ps c (ts.foldl State.onTask s0) ∧ (ts.foldl State.onTask s0).out = s0.out ∧
      (ts.foldl State.onTask s0).vfs = s0.vfs ∧ (ts.foldl State.onTask s0).db = s0.db ∧
      (ts.foldl State.onTask s0).jobs = s0.jobs ∧ (ts.foldl State.onTask s0).memDocs = s0.memDocs ∧
      (ts.foldl State.onTask s0).channel = s0.channel ∧ (ts.foldl State.onTask s0).lineEndings = s0.lineEndings ∧
      (ts.foldl State.onTask s0).sourceRootConfig = s0.sourceRootConfig ∧
      (ts.foldl State.onTask s0).shutdownRequested = s0.shutdownRequested ∧
      (ts.foldl State.onTask s0).incoming = s0.incoming := by
    intro ts
    induction ts with
    | nil => intro s0 h0 _; exact ⟨h0, rfl, rfl, rfl, rfl, rfl, rfl, rfl, rfl, rfl, rfl⟩
    | cons t ts ih =>
      intro s0 h0 hok
      rw [List.foldl_cons]
      cases t with
      | response id reply => exact (hok (.response id reply) (by simp)).elim
      | diagnostics r =>
        have hr : ∀ x ∈ r, Known s0 x.1 := hok (.diagnostics r) (by simp)
        have hrep : ∀ (r : List (Nat × List Diagnostic)) (col : Collection), (∀ x ∈ r, Known s0 x.1) →
            (∀ f ∈ col.changes, Known s0 f) →
            ∀ f ∈ (r.foldl (fun c fd => c.setNativeDiagnostics fd.1 fd.2) col).changes, Known s0 f := by
          intro r
          induction r with
          | nil => intro col _ h; exact h
          | cons x xs ihx =>
            intro col hx hcol
            rw [List.foldl_cons]
            apply ihx _ (fun y hy => hx y (by simp [hy]))
            intro f hf
            rcases mem_changes_setNative _ _ _ _ hf with h | rfl
            · exact hcol f h
            · exact hx x (by simp)
        have hb : Base ps c (s0.onTask (.diagnostics r)) :=
          { h0 with
            reported := hrep r s0.diagnostics hr h0.reported
            jobs := h0.jobs
            channel := h0.channel }
        exact ih _ hb (fun t ht => taskOk_mono (s := s0) (fun _ hk => hk) (hok t (by simp [ht])))
  have hb0 : Base ps c { s with channel := [] } := { h with jobs := h.jobs, channel := by simp }
  exact gen s.channel { s with channel := [] } hb0 (fun t ht => h.channel t ht)

/-! ## Steps of the pool -/

theorem finishJob_ok {ps c s} (env : Env) (i : Nat) (h : Inv ps c s) : Inv ps c (s.finishJob env i) := by
  unfold State.finishJob
  split
  · rename_i subs snap hj
    have hjob := h.jobs _ (List.mem_of_getElem? hj)
    split
    · refine { h with jobs := fun j hj => ?_, channel := h.channel }
      exact h.jobs j (List.mem_of_mem_eraseIdx hj)
    · rename_i t ht
      refine { h with jobs := fun j hj' => ?_, channel := h.channel }
      rcases List.mem_or_eq_of_mem_set hj' with hm | rfl
      · exact h.jobs j hm
      · obtain ⟨r, rfl, h3, _⟩ := compute_files _ ht
        intro x hx
        exact hjob x.1 (by rw [← h3]; exact List.mem_map.2 ⟨x, hx, rfl⟩)
  · exact h

theorem deliverJob_ok {ps c s} (i : Nat) (h : Inv ps c s) : Inv ps c (s.deliverJob i) := by
  unfold State.deliverJob
  split
  · rename_i t hj
    have hjob := h.jobs _ (List.mem_of_getElem? hj)
    refine { h with jobs := fun j hj => ?_, channel := fun t' ht' => ?_ }
    · exact h.jobs j (List.mem_of_mem_eraseIdx hj)
    · rcases List.mem_append.1 ht' with hm | hm
      · exact h.channel t' hm
      · simp at hm; subst hm; exact hjob
  · exact h

theorem init_ok (ps : List Bytes) (cfg : SourceRootConfig) (dyn : Bool) (hc : ∃ roots, build roots = some cfg.fsc) :
    Inv ps (Client.init dyn) (State.init cfg dyn) where
  reach := ⟨[], rfl⟩
  within := by simp [State.init, Vfs.empty]
  live := by intro id h; simp [Known, State.init, Vfs.empty] at h
  docs := by simp [State.init, Client.init, AMap.get]
  docsReal := by simp [State.init, AMap.keys]
  text := by simp [Client.init]
  rootsOk := by simp [State.init, Db.new, AMap.get]
  cfg := hc
  jobs := by simp [State.init]
  channel := by simp [State.init]
  reported := by simp [State.init, Collection.empty]
  incoming := rfl
  outgoing := rfl
  recs := by simp [State.init, Vfs.empty]
  synced := by intro id h; simp [Known, State.init, Vfs.empty] at h
  rooted := by intro id h; simp [Known, State.init, Vfs.empty] at h
  drained := rfl
  published := rfl
  noted := rfl

/-- A run along a history of the client stays running and keeps the invariant. -/
theorem runFrom_ok {ps c c' steps} (env : Env) (hps : ps.length ≤ maxId) (hist : History c steps c')
    (hopen : ∀ p ∈ opened steps, p ∈ ps) (s : State) (h : Inv ps c s) :
    ∃ s', runFrom env s steps = .running s' ∧ Inv ps c' s' := by
  induction hist generalizing s with
  | nil c => exact ⟨s, rfl, h⟩
  | @message c m c1 steps c2 cuts hsays hrest ih =>
    have ho : ∀ p v t, m = .didOpen (some p) v t → p ∈ ps := by
      rintro p v t rfl; exact hopen p (by simp [opened])
    have ho' : ∀ p ∈ opened steps, p ∈ ps := by
      intro p hp
      apply hopen
      unfold opened
      split
      · rename_i heq; simp at heq
      · rename_i heq; simp at heq; rw [← heq.2]; simp [hp]
      · rename_i heq; simp at heq; rw [← heq.2]; exact hp
    obtain ⟨s1, h1, hb, _⟩ := onMessage_ok h.toBase hps hsays ho
    obtain ⟨_, _, _, s2, _, h2, hinv, _⟩ := afterEvent_ok env cuts hb
    obtain ⟨s3, h3, h4⟩ := ih ho' s2 hinv
    refine ⟨s3, ?_, h4⟩
    have hne : m ≠ .exit := by rintro rfl; cases hsays
    rw [runFrom]
    have : step env s (.message m cuts) = .running s2 := by
      cases m <;> first | exact absurd rfl hne | simp only [step, h1, Option.bind_some, h2]
    rw [this]
    exact h3
  | @tasks c steps c2 cuts hrest ih =>
    have ho' : ∀ p ∈ opened steps, p ∈ ps := fun p hp => hopen p (by simpa [opened] using hp)
    rw [runFrom]
    simp only [step]
    by_cases he : s.channel.isEmpty = true
    · simp only [he, if_true]; exact ih ho' s h
    · simp only [he, Bool.false_eq_true, if_false]
      obtain ⟨_, _, _, s2, _, h2, hinv, _⟩ := afterEvent_ok env cuts (onTasks_ok h.toBase).1
      rw [h2]
      exact ih ho' s2 hinv
  | finish i hrest ih =>
    rw [runFrom]
    exact ih (fun p hp => hopen p (by simpa [opened] using hp)) _ (finishJob_ok env i h)
  | deliver i hrest ih =>
    rw [runFrom]
    exact ih (fun p hp => hopen p (by simpa [opened] using hp)) _ (deliverJob_ok i h)

end Verif.Server
