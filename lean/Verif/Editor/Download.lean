import Verif.Editor.DownloadModel

set_option autoImplicit false

/-!
C47: interrupted downloads leave no broken binary.
-/

namespace Verif.Editor.Download

/-! The temporary file is never the destination. -/

namespace Spec

/-- Digits of `crypto.randomBytes(5).toString('hex')`. -/
def IsHex (hex : Text) : Prop := hex.length = 10 ∧ ∀ c ∈ hex, c ∈ "0123456789abcdef".toList

/-- The downloads do not interfere: no temporary file is that of another download or a destination. -/
def Apart (jobs : List Job) : Prop :=
  (jobs.map Job.temp).Nodup ∧ ∀ j ∈ jobs, ∀ k ∈ jobs, j.temp ≠ k.dest

/-- The response stream of this download has ended without error. -/
def Ended (j : Job) : Prop := j.phase = .renaming ∨ j.phase = .done

/-- What the network guarantees: a stream only ends without error when the whole body has arrived. -/
def Honest (body : Text → Bytes) (jobs : List Job) : Prop :=
  ∀ j ∈ jobs, Ended j → j.received = body j.url

end Spec

open Spec

theorem splitExt_spec (cs : Text) : ∀ n e, splitExt cs = some (n, e) → cs = n ++ e ∧ ∃ e', e = '.' :: e' := by
  induction cs with
  | nil => intro n e h; simp [splitExt] at h
  | cons c cs ih =>
    intro n e h
    simp only [splitExt] at h
    split at h
    · next n' e' h' =>
      simp only [Option.some.injEq, Prod.mk.injEq] at h
      obtain ⟨rfl, rfl⟩ := h
      obtain ⟨h1, h2⟩ := ih n' e' h'
      exact ⟨by rw [h1]; rfl, h2⟩
    · split at h
      · next hc =>
        simp only [Option.some.injEq, Prod.mk.injEq] at h
        obtain ⟨rfl, rfl⟩ := h
        exact ⟨rfl, cs, by rw [hc]⟩
      · cases h

theorem parseBase_spec (base : Text) :
    base = (parseBase base).1 ++ (parseBase base).2 ∧
    ((parseBase base).2 = [] ∨ ∃ e, (parseBase base).2 = '.' :: e) := by
  unfold parseBase
  split
  · exact ⟨rfl, .inl rfl⟩
  · next c cs =>
    split
    · next n e h =>
      obtain ⟨h1, h2⟩ := splitExt_spec cs n e h
      exact ⟨by rw [h1]; rfl, .inr h2⟩
    · exact ⟨by simp, .inl rfl⟩

/-- For every destination and all random digits the temporary file is a different file. -/
theorem temp_ne_dest (dir base hex : Text) (h : IsHex hex) : tempFile dir base hex ≠ destFile dir base := by
  intro he
  obtain ⟨h1, h2⟩ := parseBase_spec base
  unfold tempFile destFile at he
  have he := List.append_cancel_left he
  conv at he => rhs; rw [h1]
  have he := List.append_cancel_left he
  rcases h2 with h2 | ⟨e, h2⟩
  · rw [h2] at he
    have := h.1
    rw [he] at this; simp at this
  · have : '.' ∈ "0123456789abcdef".toList := h.2 '.' (by rw [he, h2]; simp)
    revert this
    decide

example : IsHex "0a1b2c3d4e".toList ∧
    tempFile "/bin/".toList "dove-win.exe".toList "0a1b2c3d4e".toList = "/bin/dove-win0a1b2c3d4e".toList ∧
    destFile "/bin/".toList "dove-win.exe".toList = "/bin/dove-win.exe".toList :=
  ⟨⟨by decide, by decide⟩, by decide, by decide⟩

/-! What is in the files. -/

structure Inv (fs0 : Files) (w : World) : Prop where
  /-- the temporary file of a running download has what was received -/
  temp : ∀ j ∈ w.jobs, j.phase = .streaming ∨ j.phase = .renaming → w.files j.temp = some j.received
  /-- other files are as before or the complete result of a download -/
  other : ∀ p, (∀ j ∈ w.jobs, p ≠ j.temp) →
    w.files p = fs0 p ∨ ∃ j ∈ w.jobs, j.dest = p ∧ j.phase = .done ∧ w.files p = some j.received

/-- Jobs are only added and keep their files. -/
theorem step_jobs (w : World) (a : Action) :
    ∃ more, (w.step a).jobs.map (fun j => (j.temp, j.dest)) = w.jobs.map (fun j => (j.temp, j.dest)) ++ more := by
  have upd : ∀ (i : Nat) (f : Job → Files × Job), (∀ j, (f j).2.temp = j.temp ∧ (f j).2.dest = j.dest) →
      (w.update i f).jobs.map (fun j => (j.temp, j.dest)) = w.jobs.map (fun j => (j.temp, j.dest)) := by
    intro i f hf
    unfold World.update
    cases hi : w.jobs[i]? with
    | none => rfl
    | some j =>
      simp only
      rw [List.map_set]
      apply List.ext_getElem?
      intro k
      rw [List.getElem?_set]
      split
      · next hk =>
        subst hk
        split
        · rw [List.getElem?_map, hi]; simp [hf j]
        · next hlt =>
          rw [List.getElem?_eq_none (by simpa using hlt)]
      · rfl
  cases a with
  | start url dir base hex => exact ⟨_, by simp [World.step]; rfl⟩
  | respond i ok => exact ⟨[], by rw [List.append_nil]; exact upd i _ fun j => by split <;> (try split) <;> exact ⟨rfl, rfl⟩⟩
  | chunk i b => exact ⟨[], by rw [List.append_nil]; exact upd i _ fun j => by split <;> exact ⟨rfl, rfl⟩⟩
  | bodyEnds i => exact ⟨[], by rw [List.append_nil]; exact upd i _ fun j => by split <;> exact ⟨rfl, rfl⟩⟩
  | bodyFails i => exact ⟨[], by rw [List.append_nil]; exact upd i _ fun j => by split <;> exact ⟨rfl, rfl⟩⟩
  | rename i => exact ⟨[], by rw [List.append_nil]; exact upd i _ fun j => by split <;> exact ⟨rfl, rfl⟩⟩
  | renameFails i => exact ⟨[], by rw [List.append_nil]; exact upd i _ fun j => by split <;> exact ⟨rfl, rfl⟩⟩

theorem apart_iff (jobs jobs' : List Job)
    (h : jobs'.map (fun j => (j.temp, j.dest)) = jobs.map (fun j => (j.temp, j.dest))) (ha : Apart jobs) : Apart jobs' := by
  have h1 : jobs'.map Job.temp = jobs.map Job.temp := by
    have := congrArg (List.map Prod.fst) h
    simp only [List.map_map] at this
    exact this
  have hd : jobs'.map Job.dest = jobs.map Job.dest := by
    have := congrArg (List.map Prod.snd) h
    simp only [List.map_map] at this
    exact this
  refine ⟨by rw [h1]; exact ha.1, ?_⟩
  intro j hj k hk he
  have m1 : j.temp ∈ jobs.map Job.temp := by rw [← h1]; exact List.mem_map_of_mem hj
  have m2 : k.dest ∈ jobs.map Job.dest := by rw [← hd]; exact List.mem_map_of_mem hk
  obtain ⟨j', hj', e1⟩ := List.mem_map.1 m1
  obtain ⟨k', hk', e2⟩ := List.mem_map.1 m2
  exact ha.2 j' hj' k' hk' (by rw [e1, e2]; exact he)

theorem apart_mono {w : World} {a : Action} (h : Apart (w.step a).jobs) : Apart w.jobs := by
  obtain ⟨more, hm⟩ := step_jobs w a
  have h1 : (w.step a).jobs.map Job.temp = w.jobs.map Job.temp ++ more.map Prod.fst := by
    have := congrArg (List.map Prod.fst) hm
    simp only [List.map_map, List.map_append] at this
    exact this
  have hd : (w.step a).jobs.map Job.dest = w.jobs.map Job.dest ++ more.map Prod.snd := by
    have := congrArg (List.map Prod.snd) hm
    simp only [List.map_map, List.map_append] at this
    exact this
  refine ⟨?_, ?_⟩
  · have := h.1
    rw [h1] at this
    exact (List.nodup_append.1 this).1
  · intro j hj k hk he
    have m1 : j.temp ∈ (w.step a).jobs.map Job.temp := by
      rw [h1]; exact List.mem_append_left _ (List.mem_map_of_mem hj)
    have m2 : k.dest ∈ (w.step a).jobs.map Job.dest := by
      rw [hd]; exact List.mem_append_left _ (List.mem_map_of_mem hk)
    obtain ⟨j', hj', e1⟩ := List.mem_map.1 m1
    obtain ⟨k', hk', e2⟩ := List.mem_map.1 m2
    exact h.2 j' hj' k' hk' (by rw [e1, e2]; exact he)

/-- Different jobs have different temporary files. -/
theorem temp_unique {jobs : List Job} (h : Apart jobs) {i k : Nat} {j j' : Job} (hi : jobs[i]? = some j)
    (hk : jobs[k]? = some j') (he : j.temp = j'.temp) : i = k := by
  have h1 : (jobs.map Job.temp)[i]? = some j.temp := by rw [List.getElem?_map, hi]; rfl
  have h2 : (jobs.map Job.temp)[k]? = some j.temp := by rw [List.getElem?_map, hk, he]; rfl
  have hlt : i < (jobs.map Job.temp).length := by
    have := List.getElem?_eq_some_iff.1 h1
    exact this.1
  exact (List.getElem?_inj hlt h.1).1 (by rw [h1, h2])

/-- An update of one job keeps the invariant, if its effect on the files is one of three. -/
theorem update_inv {fs0 : Files} {w : World} (h : Inv fs0 w) (ha : Apart w.jobs) (i : Nat) (f : Job → Files × Job)
    (hf : ∀ j, w.jobs[i]? = some j → (f j).2.temp = j.temp ∧ (f j).2.dest = j.dest ∧ j.phase ≠ .done ∧
      ((((f j).1 = w.files ∧ ((f j).2.phase = .streaming ∨ (f j).2.phase = .renaming → w.files j.temp = some (f j).2.received))) ∨
       (∃ c, (f j).1 = w.files.write j.temp (some c) ∧ (f j).2.received = c) ∨
       ((f j).1 = (w.files.write j.dest (w.files j.temp)).write j.temp none ∧ (f j).2.phase = .done ∧
         w.files j.temp = some (f j).2.received)) ∨ f j = (w.files, j)) :
    Inv fs0 (w.update i f) := by
  unfold World.update
  cases hi : w.jobs[i]? with
  | none => exact h
  | some j =>
    have hjm : j ∈ w.jobs := List.mem_of_getElem? hi
    have hset : ∀ x ∈ w.jobs.set i (f j).2, (∃ k, k ≠ i ∧ w.jobs[k]? = some x) ∨ x = (f j).2 := by
      intro x hx
      obtain ⟨k, hk⟩ := List.getElem?_of_mem hx
      rw [List.getElem?_set] at hk
      split at hk
      · split at hk
        · exact .inr (Option.some.inj hk).symm
        · cases hk
      · next hne => exact .inl ⟨k, Ne.symm hne, hk⟩
    have hmemf : (f j).2 ∈ w.jobs.set i (f j).2 := by
      have hlt : i < w.jobs.length := (List.getElem?_eq_some_iff.1 hi).1
      exact List.mem_of_getElem? (i := i) (by rw [List.getElem?_set_self hlt])
    have hmemo : ∀ x ∈ w.jobs, x ≠ j → x ∈ w.jobs.set i (f j).2 := by
      intro x hx hne
      obtain ⟨k, hk⟩ := List.getElem?_of_mem hx
      by_cases hki : k = i
      · subst hki; rw [hi] at hk; exact absurd (Option.some.inj hk).symm hne
      · exact List.mem_of_getElem? (i := k) (by rw [List.getElem?_set_ne (Ne.symm hki)]; exact hk)
    rcases hf j hi with ⟨ht, hd, hnd, hc⟩ | hsame
    · have htemp : ∀ p, (∀ x ∈ w.jobs.set i (f j).2, p ≠ x.temp) → ∀ x ∈ w.jobs, p ≠ x.temp := by
        intro p hp x hx
        by_cases hxj : x = j
        · rw [hxj, ← ht]; exact hp _ hmemf
        · exact hp x (hmemo x hx hxj)
      have hold : ∀ p, (∃ x ∈ w.jobs, x.dest = p ∧ x.phase = .done ∧ w.files p = some x.received) →
          ∃ x ∈ w.jobs.set i (f j).2, x.dest = p ∧ x.phase = .done ∧ w.files p = some x.received := by
        rintro p ⟨x, hx, h1, h2, h3⟩
        exact ⟨x, hmemo x hx (fun e => hnd (by rw [← e]; exact h2)), h1, h2, h3⟩
      rcases hc with ⟨hfs, hrec⟩ | ⟨c, hfs, hrec⟩ | ⟨hfs, hph, hrec⟩
      · refine ⟨?_, ?_⟩
        · intro x hx hp
          simp only [hfs]
          rcases hset x hx with ⟨k, hk, hkx⟩ | rfl
          · exact h.temp x (List.mem_of_getElem? hkx) hp
          · rw [ht]; exact hrec hp
        · intro p hp
          simp only [hfs]
          rcases h.other p (htemp p hp) with h' | h'
          · exact .inl h'
          · exact .inr (hold p h')
      · refine ⟨?_, ?_⟩
        · intro x hx hp
          simp only [hfs]
          rcases hset x hx with ⟨k, hk, hkx⟩ | rfl
          · have hne : x.temp ≠ j.temp := fun e => hk (temp_unique ha hkx hi e)
            simp only [Files.write, if_neg hne]
            exact h.temp x (List.mem_of_getElem? hkx) hp
          · rw [ht]; simp only [Files.write, if_true]; rw [hrec]
        · intro p hp
          simp only [hfs]
          have hne : p ≠ j.temp := htemp p hp j hjm
          simp only [Files.write, if_neg hne]
          rcases h.other p (htemp p hp) with h' | h'
          · exact .inl h'
          · exact .inr (hold p h')
      · refine ⟨?_, ?_⟩
        · intro x hx hp
          simp only [hfs]
          rcases hset x hx with ⟨k, hk, hkx⟩ | rfl
          · have hxm := List.mem_of_getElem? hkx
            have hne : x.temp ≠ j.temp := fun e => hk (temp_unique ha hkx hi e)
            have hne2 : x.temp ≠ j.dest := ha.2 x hxm j hjm
            simp only [Files.write, if_neg hne, if_neg hne2]
            exact h.temp x hxm hp
          · rw [hph] at hp; simp at hp
        · intro p hp
          simp only [hfs]
          have hne : p ≠ j.temp := htemp p hp j hjm
          by_cases hpd : p = j.dest
          · right
            refine ⟨(f j).2, hmemf, by rw [hd, hpd], hph, ?_⟩
            simp only [Files.write, if_neg hne, if_pos hpd]
            exact hrec
          · simp only [Files.write, if_neg hne, if_neg hpd]
            rcases h.other p (htemp p hp) with h' | h'
            · exact .inl h'
            · exact .inr (hold p h')
    · have e : (f j).2 = j := by rw [hsame]
      have e1 : (f j).1 = w.files := by rw [hsame]
      have : w.jobs.set i (f j).2 = w.jobs := by
        rw [e]
        apply List.ext_getElem?
        intro k
        rw [List.getElem?_set]
        split
        · next hk => subst hk; rw [hi]; simp [(List.getElem?_eq_some_iff.1 hi).1]
        · rfl
      simp only [this, e1]
      exact h

theorem step_inv {fs0 : Files} {w : World} (a : Action) (h : Inv fs0 w) (ha : Apart (w.step a).jobs) :
    Inv fs0 (w.step a) := by
  have ha0 := apart_mono ha
  cases a with
  | start url dir base hex =>
    refine ⟨?_, ?_⟩
    · intro j hj hp
      simp only [World.step, List.mem_append, List.mem_singleton] at hj
      rcases hj with hj | rfl
      · exact h.temp j hj hp
      · simp at hp
    · intro p hp
      rcases h.other p (fun j hj => hp j (List.mem_append_left _ hj)) with h' | ⟨j, hj, h'⟩
      · exact .inl h'
      · exact .inr ⟨j, List.mem_append_left _ hj, h'⟩
  | respond i ok =>
    refine update_inv h ha0 i _ ?_
    intro j hi
    by_cases hp : j.phase = .fetching
    · left
      cases ok
      · simp [hp]
      · simp only [hp, if_true]
        exact ⟨by simp, by simp, by simp, .inr (.inl ⟨[], rfl, rfl⟩)⟩
    · right; simp [hp]
  | chunk i b =>
    refine update_inv h ha0 i _ ?_
    intro j hi
    by_cases hp : j.phase = .streaming
    · left
      simp only [hp, if_true]
      refine ⟨by simp, by simp, by simp, .inr (.inl ⟨_, rfl, ?_⟩)⟩
      rw [h.temp j (List.mem_of_getElem? hi) (.inl hp)]
      rfl
    · right; simp [hp]
  | bodyEnds i =>
    refine update_inv h ha0 i _ ?_
    intro j hi
    by_cases hp : j.phase = .streaming
    · left
      simp only [hp, if_true]
      exact ⟨by simp, by simp, by simp, .inl ⟨by simp, fun _ => h.temp j (List.mem_of_getElem? hi) (.inl hp)⟩⟩
    · right; simp [hp]
  | bodyFails i =>
    refine update_inv h ha0 i _ ?_
    intro j hi
    by_cases hp : j.phase = .streaming
    · left; simp [hp]
    · right; simp [hp]
  | rename i =>
    refine update_inv h ha0 i _ ?_
    intro j hi
    by_cases hp : j.phase = .renaming
    · left
      simp only [hp, if_true]
      exact ⟨by simp, by simp, by simp, .inr (.inr ⟨by simp, by simp, h.temp j (List.mem_of_getElem? hi) (.inr hp)⟩)⟩
    · right; simp [hp]
  | renameFails i =>
    refine update_inv h ha0 i _ ?_
    intro j hi
    by_cases hp : j.phase = .renaming
    · left; simp [hp]
    · right; simp [hp]

theorem apart_run_mono (acts : List Action) (w : World) (h : Apart (w.run acts).jobs) : Apart w.jobs := by
  induction acts generalizing w with
  | nil => exact h
  | cons a acts ih => exact apart_mono (ih (w.step a) h)

theorem run_inv {fs0 : Files} (acts : List Action) (w : World) (h : Inv fs0 w) (ha : Apart (w.run acts).jobs) :
    Inv fs0 (w.run acts) := by
  induction acts generalizing w with
  | nil => exact h
  | cons a acts ih =>
    exact ih (w.step a) (step_inv a h (apart_run_mono acts (w.step a) ha)) ha

/-- The downloads that were started, in order: address, folder, name and random digits. -/
def Spec.starts : List Action → List (Text × Text × Text × Text)
  | [] => []
  | .start url dir base hex :: acts => (url, dir, base, hex) :: starts acts
  | _ :: acts => starts acts

/-- C47: the downloads are those that were started, each with a temporary file and a destination of its own name in
the folder that was asked for. -/
theorem jobs_are_started (acts : List Action) (w : World) :
    (w.run acts).jobs.map (fun j => (j.url, j.temp, j.dest)) = w.jobs.map (fun j => (j.url, j.temp, j.dest)) ++
      (starts acts).map fun (url, dir, base, hex) => (url, dir ++ ((parseBase base).1 ++ hex), dir ++ base) := by
  have upd : ∀ (w : World) (i : Nat) (f : Job → Files × Job),
      (∀ j, (f j).2.url = j.url ∧ (f j).2.temp = j.temp ∧ (f j).2.dest = j.dest) →
      (w.update i f).jobs.map (fun j => (j.url, j.temp, j.dest)) = w.jobs.map (fun j => (j.url, j.temp, j.dest)) := by
    intro w i f hf
    unfold World.update
    cases hi : w.jobs[i]? with
    | none => rfl
    | some j =>
      obtain ⟨h0, h1, h2⟩ := hf j
      apply List.ext_getElem?
      intro k
      simp only [List.map_set, h0, h1, h2]
      rw [List.getElem?_set]
      split
      · next hk =>
        subst hk
        rw [List.getElem?_map, hi]
        split
        · rfl
        · next hl => exact absurd ((List.getElem?_eq_some_iff.1 hi).1) (by simpa using hl)
      · rfl
  induction acts generalizing w with
  | nil => simp [World.run, starts]
  | cons a acts ih =>
    show ((w.step a).run acts).jobs.map _ = _
    rw [ih (w.step a)]
    cases a with
    | start url dir base hex => simp [World.step, starts, tempFile, destFile]
    | _ =>
      simp only [World.step, starts]
      congr 1
      apply upd
      intro j
      repeat' split
      all_goals exact ⟨rfl, rfl, rfl⟩

/-- C47: a download that stores anything has had a response with status ok: the text of an error is never
installed. -/
theorem stored_was_ok (fs0 : Files) (acts : List Action) (i : Nat) (j : Job)
    (hj : ((World.mk fs0 []).run acts).jobs[i]? = some j) (hp : Ended j ∨ j.received ≠ []) :
    .respond i true ∈ acts := by
  -- a job with data, or one that is streaming, was so before or is now
  have upd : ∀ (w : World) (k : Nat) (f : Job → Files × Job) (j' : Job), (w.update k f).jobs[i]? = some j' →
      (k ≠ i ∧ w.jobs[i]? = some j') ∨ (k = i ∧ ∃ j, w.jobs[i]? = some j ∧ j' = (f j).2) := by
    intro w k f j' h
    unfold World.update at h
    cases hk : w.jobs[k]? with
    | none =>
      rw [hk] at h
      exact .inl ⟨(by rintro rfl; simp only at h; rw [hk] at h; cases h), h⟩
    | some x =>
      rw [hk] at h
      simp only at h
      rw [List.getElem?_set] at h
      split at h
      · next e =>
        subst e
        split at h
        · exact .inr ⟨rfl, x, hk, by injection h with h; exact h.symm⟩
        · cases h
      · next e => exact .inl ⟨e, h⟩
  have step : ∀ (w : World) (a : Action) (j' : Job), (w.step a).jobs[i]? = some j' →
      (j'.phase = .streaming ∨ Ended j' ∨ j'.received ≠ []) → a ≠ .respond i true →
      ∃ j, w.jobs[i]? = some j ∧ (j.phase = .streaming ∨ Ended j ∨ j.received ≠ []) := by
    intro w a j' h hl hne
    cases a with
    | start url dir base hex =>
      simp only [World.step] at h
      rw [List.getElem?_append] at h
      split at h
      · exact ⟨j', h, hl⟩
      · rename_i hlt
        have hn : i - w.jobs.length = 0 := by
          cases hx : i - w.jobs.length with
          | zero => rfl
          | succ n => rw [hx] at h; simp at h
        rw [hn] at h
        simp only [List.getElem?_cons_zero, Option.some.injEq] at h
        subst h
        simp [Ended] at hl
    | respond k ok =>
      rcases upd w k _ j' h with ⟨_, h⟩ | ⟨rfl, j, h0, rfl⟩
      · exact ⟨j', h, hl⟩
      · refine ⟨j, h0, ?_⟩
        cases ok with
        | true => exact absurd rfl hne
        | false =>
          simp only [Bool.false_eq_true, if_false] at hl
          split at hl
          · simp [Ended] at hl
            exact .inr (.inr hl)
          · exact hl
    | chunk k bytes =>
      rcases upd w k _ j' h with ⟨_, h⟩ | ⟨rfl, j, h0, rfl⟩
      · exact ⟨j', h, hl⟩
      · refine ⟨j, h0, ?_⟩
        split at hl
        · next hs => exact .inl hs
        · exact hl
    | bodyEnds k =>
      rcases upd w k _ j' h with ⟨_, h⟩ | ⟨rfl, j, h0, rfl⟩
      · exact ⟨j', h, hl⟩
      · refine ⟨j, h0, ?_⟩
        split at hl
        · next hs => exact .inl hs
        · exact hl
    | bodyFails k =>
      rcases upd w k _ j' h with ⟨_, h⟩ | ⟨rfl, j, h0, rfl⟩
      · exact ⟨j', h, hl⟩
      · refine ⟨j, h0, ?_⟩
        split at hl
        · next hs => exact .inl hs
        · exact hl
    | rename k =>
      rcases upd w k _ j' h with ⟨_, h⟩ | ⟨rfl, j, h0, rfl⟩
      · exact ⟨j', h, hl⟩
      · refine ⟨j, h0, ?_⟩
        split at hl
        · next hs => exact .inr (.inl (.inl hs))
        · exact hl
    | renameFails k =>
      rcases upd w k _ j' h with ⟨_, h⟩ | ⟨rfl, j, h0, rfl⟩
      · exact ⟨j', h, hl⟩
      · refine ⟨j, h0, ?_⟩
        split at hl
        · next hs => exact .inr (.inl (.inl hs))
        · exact hl
  have run : ∀ (acts : List Action) (w : World) (j' : Job), (w.run acts).jobs[i]? = some j' →
      (j'.phase = .streaming ∨ Ended j' ∨ j'.received ≠ []) → .respond i true ∉ acts →
      ∃ j, w.jobs[i]? = some j ∧ (j.phase = .streaming ∨ Ended j ∨ j.received ≠ []) := by
    intro acts
    induction acts with
    | nil => intro w j' h hl _; exact ⟨j', h, hl⟩
    | cons a acts ih =>
      intro w j' h hl hn
      simp only [List.mem_cons, not_or] at hn
      obtain ⟨k, hk, hkl⟩ := ih (w.step a) j' h hl hn.2
      exact step w a k hk hkl (fun e => hn.1 e.symm)
  refine Classical.byContradiction fun hn => ?_
  obtain ⟨k, hk, _⟩ := run acts _ j hj (.inr hp) hn
  simp at hk

/-- C47: at every point of every interleaving of downloads, each of which may stop anywhere, every file
that is not a temporary file is untouched or is the complete body of a finished download to it. -/
theorem dest_untouched_or_complete (fs0 : Files) (body : Text → Bytes) (acts : List Action)
    (ha : Apart ((World.mk fs0 []).run acts).jobs) (hb : Honest body ((World.mk fs0 []).run acts).jobs)
    (p : Text) (hp : ∀ j ∈ ((World.mk fs0 []).run acts).jobs, p ≠ j.temp) :
    ((World.mk fs0 []).run acts).files p = fs0 p ∨
    ∃ j ∈ ((World.mk fs0 []).run acts).jobs, j.dest = p ∧ ((World.mk fs0 []).run acts).files p = some (body j.url) := by
  have hi : Inv fs0 ((World.mk fs0 []).run acts) :=
    run_inv acts (World.mk fs0 []) ⟨by simp, fun p _ => .inl rfl⟩ ha
  rcases hi.other p hp with h | ⟨j, hj, h1, h2, h3⟩
  · exact .inl h
  · exact .inr ⟨j, hj, h1, by rw [h3, hb j hj (.inr h2)]⟩

/-- Downloads with different random digits do not interfere, if no destination ends in such digits. -/
theorem started_apart (fs0 : Files) (acts : List Action) (hx : ∀ a ∈ starts acts, IsHex a.2.2.2)
    (hd : ((starts acts).map fun a => a.2.2.2).Nodup)
    (he : ∀ a ∈ starts acts, ∀ b ∈ starts acts, ¬ a.2.2.2 <:+ b.2.1 ++ b.2.2.1) :
    Apart ((World.mk fs0 []).run acts).jobs := by
  have hj := jobs_are_started acts (World.mk fs0 [])
  simp only [List.map_nil, List.nil_append] at hj
  have ht : ((World.mk fs0 []).run acts).jobs.map Job.temp =
      (starts acts).map fun a => a.2.1 ++ ((parseBase a.2.2.1).1 ++ a.2.2.2) := by
    have := congrArg (List.map fun x : Text × Text × Text => x.2.1) hj
    simp only [List.map_map] at this
    exact this
  have hde : ((World.mk fs0 []).run acts).jobs.map Job.dest = (starts acts).map fun a => a.2.1 ++ a.2.2.1 := by
    have := congrArg (List.map fun x : Text × Text × Text => x.2.2) hj
    simp only [List.map_map] at this
    exact this
  constructor
  · rw [ht]
    clear hj ht hde he
    generalize starts acts = l at hx hd
    induction l with
    | nil => simp
    | cons x l ih =>
      simp only [List.map_cons, List.nodup_cons] at hd ⊢
      refine ⟨?_, ih (fun a ha => hx a (by simp [ha])) hd.2⟩
      intro hm
      obtain ⟨y, hy, e⟩ := List.mem_map.1 hm
      have hl : y.2.2.2.length = x.2.2.2.length := by rw [(hx x (by simp)).1, (hx y (by simp [hy])).1]
      rw [← List.append_assoc, ← List.append_assoc] at e
      have := (List.append_inj' e hl).2
      exact hd.1 (List.mem_map.2 ⟨y, hy, this⟩)
  · intro j hj' k hk' e
    have h1 : j.temp ∈ ((World.mk fs0 []).run acts).jobs.map Job.temp := List.mem_map_of_mem hj'
    have h2 : k.dest ∈ ((World.mk fs0 []).run acts).jobs.map Job.dest := List.mem_map_of_mem hk'
    rw [ht] at h1
    rw [hde] at h2
    obtain ⟨a, ha, e1⟩ := List.mem_map.1 h1
    obtain ⟨b, hb, e2⟩ := List.mem_map.1 h2
    refine he a ha b hb ?_
    rw [e2, ← e, ← e1]
    exact ⟨a.2.1 ++ (parseBase a.2.2.1).1, by simp⟩

/-- C47, for downloads as they are started: each with ten random digits of its own, in which no destination ends.
Every destination is untouched or complete at every point of every interleaving. -/
theorem destinations_untouched_or_complete (fs0 : Files) (body : Text → Bytes) (acts : List Action)
    (hx : ∀ a ∈ starts acts, IsHex a.2.2.2) (hd : ((starts acts).map fun a => a.2.2.2).Nodup)
    (he : ∀ a ∈ starts acts, ∀ b ∈ starts acts, ¬ a.2.2.2 <:+ b.2.1 ++ b.2.2.1)
    (hb : Honest body ((World.mk fs0 []).run acts).jobs) (url dir base hex : Text) (hs : (url, dir, base, hex) ∈ starts acts) :
    ((World.mk fs0 []).run acts).files (dir ++ base) = fs0 (dir ++ base) ∨
    ∃ url' dir' base' hex', (url', dir', base', hex') ∈ starts acts ∧ dir' ++ base' = dir ++ base ∧
      ((World.mk fs0 []).run acts).files (dir ++ base) = some (body url') := by
  have ha := started_apart fs0 acts hx hd he
  have hj := jobs_are_started acts (World.mk fs0 [])
  simp only [List.map_nil, List.nil_append] at hj
  have hm : (url, dir ++ ((parseBase base).1 ++ hex), dir ++ base) ∈
      ((World.mk fs0 []).run acts).jobs.map fun j => (j.url, j.temp, j.dest) := by
    rw [hj]
    exact List.mem_map.2 ⟨_, hs, rfl⟩
  obtain ⟨k, hk, ek⟩ := List.mem_map.1 hm
  simp only [Prod.mk.injEq] at ek
  rcases dest_untouched_or_complete fs0 body acts ha hb (dir ++ base)
    (fun j hj e => ha.2 j hj k hk (by rw [ek.2.2, e])) with h | ⟨j, hj', h1, h2⟩
  · exact .inl h
  · have hm' : (j.url, j.temp, j.dest) ∈ ((World.mk fs0 []).run acts).jobs.map fun j => (j.url, j.temp, j.dest) :=
      List.mem_map_of_mem (f := fun j : Job => (j.url, j.temp, j.dest)) hj'
    rw [hj] at hm'
    obtain ⟨⟨u, d, b, x⟩, hx', e⟩ := List.mem_map.1 hm'
    simp only [Prod.mk.injEq] at e
    exact .inr ⟨u, d, b, x, hx', by rw [e.2.2, h1], by rw [h2, e.1]⟩

/-- The binary that is used because its file exists is complete, if there was none before the first
download. -/
theorem existing_binary_is_complete (fs0 : Files) (body : Text → Bytes) (acts : List Action)
    (ha : Apart ((World.mk fs0 []).run acts).jobs) (hb : Honest body ((World.mk fs0 []).run acts).jobs)
    (p : Text) (hp : ∀ j ∈ ((World.mk fs0 []).run acts).jobs, p ≠ j.temp) (h0 : fs0 p = none) (c : Bytes)
    (hc : ((World.mk fs0 []).run acts).usesExisting p = some c) :
    ∃ j ∈ ((World.mk fs0 []).run acts).jobs, j.dest = p ∧ c = body j.url := by
  rcases dest_untouched_or_complete fs0 body acts ha hb p hp with h | ⟨j, hj, h1, h2⟩
  · unfold World.usesExisting at hc
    rw [h, h0] at hc; cases hc
  · unfold World.usesExisting at hc
    rw [h2] at hc
    exact ⟨j, hj, h1, (Option.some.inj hc).symm⟩

/-- The same for downloads as they are started. -/
theorem used_binary_is_complete (fs0 : Files) (body : Text → Bytes) (acts : List Action)
    (hx : ∀ a ∈ starts acts, IsHex a.2.2.2) (hd : ((starts acts).map fun a => a.2.2.2).Nodup)
    (he : ∀ a ∈ starts acts, ∀ b ∈ starts acts, ¬ a.2.2.2 <:+ b.2.1 ++ b.2.2.1)
    (hb : Honest body ((World.mk fs0 []).run acts).jobs) (url dir base hex : Text) (hs : (url, dir, base, hex) ∈ starts acts)
    (h0 : fs0 (dir ++ base) = none) (c : Bytes) (hc : ((World.mk fs0 []).run acts).usesExisting (dir ++ base) = some c) :
    ∃ url' dir' base' hex', (url', dir', base', hex') ∈ starts acts ∧ dir' ++ base' = dir ++ base ∧ c = body url' := by
  unfold World.usesExisting at hc
  rcases destinations_untouched_or_complete fs0 body acts hx hd he hb url dir base hex hs with h | ⟨u, d, b, x, h1, h2, h3⟩
  · rw [h, h0] at hc; cases hc
  · rw [h3] at hc
    exact ⟨u, d, b, x, h1, h2, (Option.some.inj hc).symm⟩

/-- What the network has sent for the download with this number. -/
def Spec.sent (i : Nat) : List Action → Bytes
  | [] => []
  | .chunk k bytes :: acts => if k = i then bytes ++ sent i acts else sent i acts
  | _ :: acts => sent i acts

/-- What the network guarantees, in terms of what happens: only started downloads are answered, data comes behind the
answer, and a stream ends without error only when the whole body was sent. -/
structure Spec.Reliable (body : Text → Bytes) (acts : List Action) : Prop where
  answers : ∀ pre i ok post, acts = pre ++ .respond i ok :: post → i < (starts pre).length
  chunks : ∀ pre i b post, acts = pre ++ .chunk i b :: post → ∃ ok, .respond i ok ∈ pre
  ends : ∀ pre i post, acts = pre ++ .bodyEnds i :: post → ∀ s, (starts pre)[i]? = some s → sent i pre = body s.1

theorem sent_append (i : Nat) (a b : List Action) : sent i (a ++ b) = sent i a ++ sent i b := by
  induction a with
  | nil => rfl
  | cons x a ih => cases x <;> simp [sent, ih] <;> split <;> simp

theorem starts_append (a b : List Action) : starts (a ++ b) = starts a ++ starts b := by
  induction a with
  | nil => rfl
  | cons x a ih => cases x <;> simp [starts, ih]

theorem sent_nothing (i : Nat) (acts : List Action) (h : ∀ b, .chunk i b ∉ acts) : sent i acts = [] := by
  induction acts with
  | nil => rfl
  | cons x a ih =>
    have := ih fun b hb => h b (List.mem_cons_of_mem _ hb)
    cases x with
    | chunk k b =>
      have hk : k ≠ i := fun e => h b (by rw [e]; simp)
      simp [sent, hk, this]
    | _ => simpa [sent] using this

theorem reliable_prefix {body : Text → Bytes} {acts : List Action} {a : Action} (h : Reliable body (acts ++ [a])) :
    Reliable body acts :=
  ⟨fun pre i ok post e => h.answers pre i ok (post ++ [a]) (by rw [e]; simp),
    fun pre i b post e => h.chunks pre i b (post ++ [a]) (by rw [e]; simp),
    fun pre i post e => h.ends pre i (post ++ [a]) (by rw [e]; simp)⟩

theorem jobs_count (fs0 : Files) (acts : List Action) :
    ((World.mk fs0 []).run acts).jobs.length = (starts acts).length := by
  have := congrArg List.length (jobs_are_started acts (World.mk fs0 []))
  simpa using this

theorem jobs_url (fs0 : Files) (acts : List Action) (i : Nat) (j : Job)
    (hj : ((World.mk fs0 []).run acts).jobs[i]? = some j) : ∃ s, (starts acts)[i]? = some s ∧ s.1 = j.url := by
  have h := congrArg (fun l => l[i]?) (jobs_are_started acts (World.mk fs0 []))
  simp only [List.map_nil, List.nil_append, List.getElem?_map, hj, Option.map_some] at h
  cases hs : (starts acts)[i]? with
  | none => rw [hs] at h; simp at h
  | some s =>
    rw [hs] at h
    simp only [Option.map_some, Option.some.injEq, Prod.mk.injEq] at h
    exact ⟨s, rfl, h.1.symm⟩

/-- What is known of a download after these actions. -/
structure Known (body : Text → Bytes) (acts : List Action) (i : Nat) (j : Job) : Prop where
  fetching : j.phase = .fetching → ∀ ok, .respond i ok ∉ acts
  streaming : j.phase = .streaming → j.received = sent i acts
  ended : Ended j → j.received = body j.url

theorem known_all (fs0 : Files) (body : Text → Bytes) (racts : List Action) (hr : Reliable body racts.reverse) (i : Nat)
    (j : Job) (hj : ((World.mk fs0 []).run racts.reverse).jobs[i]? = some j) : Known body racts.reverse i j := by
  induction racts generalizing i j with
  | nil => simp [World.run] at hj
  | cons a racts ih =>
    rw [List.reverse_cons] at hr hj ⊢
    have hr' := reliable_prefix hr
    have ih := ih hr'
    generalize racts.reverse = acts at *
    have hrun : (World.mk fs0 []).run (acts ++ [a]) = ((World.mk fs0 []).run acts).step a := by
      simp [World.run, List.foldl_append]
    rw [hrun] at hj
    have hlen := jobs_count fs0 acts
    have hurl := jobs_url fs0 acts
    generalize (World.mk fs0 []).run acts = w at *
    -- a download that the action does not concern
    have same : ∀ j', w.jobs[i]? = some j' → (∀ ok, a ≠ .respond i ok) → (∀ b, a ≠ .chunk i b) → Known body (acts ++ [a]) i j' := by
      intro j' h h1 h2
      have k := ih i j' h
      refine ⟨fun hp ok hm => ?_, fun hp => ?_, k.ended⟩
      · rcases List.mem_append.1 hm with hm | hm
        · exact k.fetching hp ok hm
        · exact h1 ok (List.mem_singleton.1 hm).symm
      · rw [sent_append, sent_nothing i [a] (fun b hb => h2 b (List.mem_singleton.1 hb).symm), List.append_nil]
        exact k.streaming hp
    have upd : ∀ (k : Nat) (f : Job → Files × Job), (w.update k f).jobs[i]? = some j →
        (k ≠ i ∧ w.jobs[i]? = some j) ∨ (k = i ∧ ∃ j', w.jobs[i]? = some j' ∧ j = (f j').2) := by
      intro k f h
      unfold World.update at h
      by_cases hk : k = i
      · subst hk
        right
        cases hi : w.jobs[k]? with
        | none => rw [hi] at h; simp only at h; rw [hi] at h; cases h
        | some j' =>
          rw [hi] at h
          simp only [List.getElem?_set_self (List.getElem?_eq_some_iff.1 hi).1, Option.some.injEq] at h
          exact ⟨rfl, j', rfl, h.symm⟩
      · left
        refine ⟨hk, ?_⟩
        split at h
        · exact h
        · simpa [List.getElem?_set, hk] using h
    cases a with
    | start url dir base hex =>
      simp only [World.step] at hj
      by_cases hi : i < w.jobs.length
      · rw [List.getElem?_append_left hi] at hj
        exact same j hj (by simp) (by simp)
      · rw [List.getElem?_append_right (by omega)] at hj
        have hj' := List.mem_of_getElem? hj
        simp only [List.mem_singleton] at hj'
        subst hj'
        refine ⟨fun _ ok hm => ?_, fun h => (by cases h), fun h => by rcases h with h | h <;> cases h⟩
        rcases List.mem_append.1 hm with hm | hm
        · obtain ⟨pre, post, e⟩ := List.append_of_mem hm
          have := hr'.answers pre i ok post e
          rw [e, starts_append, List.length_append] at hlen
          omega
        · simp at hm
    | respond k ok =>
      rcases upd k _ hj with ⟨hk, h⟩ | ⟨hk, j', h, e⟩
      · exact same j h (by simp [hk]) (by simp)
      · subst hk
        have kn := ih k j' h
        by_cases hp : j'.phase = .fetching
        · simp only [hp, if_true] at e
          have hs : sent k acts = [] := by
            apply sent_nothing
            intro b hb
            obtain ⟨pre, post, e⟩ := List.append_of_mem hb
            obtain ⟨ok', h'⟩ := hr'.chunks pre k b post e
            exact kn.fetching hp ok' (by rw [e]; exact List.mem_append_left _ h')
          cases ok
          · simp only [Bool.false_eq_true, if_false] at e
            subst e
            exact ⟨fun h => (by cases h), fun h => (by cases h), fun h => by rcases h with h | h <;> cases h⟩
          · simp only [if_true] at e
            subst e
            exact ⟨fun h => (by cases h), fun _ => (by simp [sent_append, hs, sent]), fun h => by rcases h with h | h <;> cases h⟩
        · simp only [hp, if_false] at e
          subst e
          exact ⟨fun h => absurd h hp, fun h => (by rw [sent_append]; simpa [sent] using kn.streaming h), kn.ended⟩
    | chunk k b =>
      rcases upd k _ hj with ⟨hk, h⟩ | ⟨hk, j', h, e⟩
      · exact same j h (by simp) (by simp [hk])
      · subst hk
        have kn := ih k j' h
        by_cases hp : j'.phase = .streaming
        · simp only [hp, if_true] at e
          subst e
          refine ⟨fun h => ?_, fun _ => ?_, fun h => ?_⟩
          · cases h
          · simp [sent_append, sent, kn.streaming hp]
          · rcases h with h | h <;> · cases h
        · simp only [hp, if_false] at e
          subst e
          exact ⟨fun h ok hm => kn.fetching h ok (by simpa using hm), fun h => absurd h hp, kn.ended⟩
    | bodyEnds k =>
      rcases upd k _ hj with ⟨hk, h⟩ | ⟨hk, j', h, e⟩
      · exact same j h (by simp) (by simp)
      · subst hk
        by_cases hp : j'.phase = .streaming
        · simp only [hp, if_true] at e
          obtain ⟨s, hs, hu⟩ := hurl k j' h
          have := hr.ends acts k [] rfl s hs
          have hrec := (ih k j' h).streaming hp
          subst e
          exact ⟨fun h => (by cases h), fun h => (by cases h), fun _ => by simp only; rw [hrec, this, hu]⟩
        · simp only [hp, if_false] at e
          subst e
          exact same _ h (by simp) (by simp)
    | bodyFails k =>
      rcases upd k _ hj with ⟨hk, h⟩ | ⟨hk, j', h, e⟩
      · exact same j h (by simp) (by simp)
      · subst hk
        by_cases hp : j'.phase = .streaming
        · simp only [hp, if_true] at e
          subst e
          exact ⟨fun h => (by cases h), fun h => (by cases h), fun h => by rcases h with h | h <;> cases h⟩
        · simp only [hp, if_false] at e
          subst e
          exact same _ h (by simp) (by simp)
    | rename k =>
      rcases upd k _ hj with ⟨hk, h⟩ | ⟨hk, j', h, e⟩
      · exact same j h (by simp) (by simp)
      · subst hk
        by_cases hp : j'.phase = .renaming
        · simp only [hp, if_true] at e
          have := (ih k j' h).ended (.inl hp)
          subst e
          exact ⟨fun h => (by cases h), fun h => (by cases h), fun _ => this⟩
        · simp only [hp, if_false] at e
          subst e
          exact same _ h (by simp) (by simp)
    | renameFails k =>
      rcases upd k _ hj with ⟨hk, h⟩ | ⟨hk, j', h, e⟩
      · exact same j h (by simp) (by simp)
      · subst hk
        by_cases hp : j'.phase = .renaming
        · simp only [hp, if_true] at e
          subst e
          exact ⟨fun h => (by cases h), fun h => (by cases h), fun h => by rcases h with h | h <;> cases h⟩
        · simp only [hp, if_false] at e
          subst e
          exact same _ h (by simp) (by simp)

/-- With a reliable network the downloads end honestly. -/
theorem reliable_honest (fs0 : Files) (body : Text → Bytes) (acts : List Action) (hr : Reliable body acts) :
    Honest body ((World.mk fs0 []).run acts).jobs := by
  intro j hj he
  obtain ⟨i, hi⟩ := List.getElem?_of_mem hj
  have := known_all fs0 body acts.reverse (by rwa [List.reverse_reverse]) i j (by rwa [List.reverse_reverse])
  exact this.ended he

/-- C47, in terms of what happens only: if the network is reliable and the random digits of the started downloads are
their own, a destination is untouched or complete at every point of every interleaving. -/
theorem reliable_destinations (fs0 : Files) (body : Text → Bytes) (acts : List Action)
    (hx : ∀ a ∈ starts acts, IsHex a.2.2.2) (hd : ((starts acts).map fun a => a.2.2.2).Nodup)
    (he : ∀ a ∈ starts acts, ∀ b ∈ starts acts, ¬ a.2.2.2 <:+ b.2.1 ++ b.2.2.1)
    (hr : Reliable body acts) (url dir base hex : Text) (hs : (url, dir, base, hex) ∈ starts acts) :
    ((World.mk fs0 []).run acts).files (dir ++ base) = fs0 (dir ++ base) ∨
    ∃ url' dir' base' hex', (url', dir', base', hex') ∈ starts acts ∧ dir' ++ base' = dir ++ base ∧
      ((World.mk fs0 []).run acts).files (dir ++ base) = some (body url') :=
  destinations_untouched_or_complete fs0 body acts hx hd he (reliable_honest fs0 body acts hr) url dir base hex hs

/-- Two downloads of the same file, the first one killed half way. -/
def sampleRun : List Action :=
  [.start ['u'] ['/'] ['d'] "0000000000".toList, .respond 0 true, .chunk 0 [1],
   .start ['u'] ['/'] ['d'] "0000000001".toList, .respond 1 true, .chunk 1 [1], .chunk 0 [], .chunk 1 [2], .bodyEnds 1, .rename 1]

example : let w := (World.mk (fun _ => none) []).run sampleRun
    (w.jobs.map Job.temp).Nodup ∧ w.files ['/', 'd'] = some [1, 2] ∧ w.files "/d0000000000".toList = some [1] := by
  decide

example : Apart ((World.mk (fun _ => none) []).run sampleRun).jobs ∧
    Honest (fun _ => [1, 2]) ((World.mk (fun _ => none) []).run sampleRun).jobs := by
  refine ⟨⟨by decide, ?_⟩, ?_⟩
  · intro j hj k hk
    have hj' : j.temp ∈ ((World.mk (fun _ => none) []).run sampleRun).jobs.map Job.temp := List.mem_map_of_mem hj
    have hk' : k.dest ∈ ((World.mk (fun _ => none) []).run sampleRun).jobs.map Job.dest := List.mem_map_of_mem hk
    have hall : ∀ a ∈ ((World.mk (fun _ => none) []).run sampleRun).jobs.map Job.temp,
        ∀ b ∈ ((World.mk (fun _ => none) []).run sampleRun).jobs.map Job.dest, a ≠ b := by decide
    exact hall _ hj' _ hk'
  · intro j hj he
    have hall : ∀ x ∈ ((World.mk (fun _ => none) []).run sampleRun).jobs.map (fun j => (j.phase, j.received)),
        (x.1 = .renaming ∨ x.1 = .done) → x.2 = [1, 2] := by decide
    exact hall _ (List.mem_map_of_mem (f := fun j : Job => (j.phase, j.received)) hj) he

/-- Witness of `jobs_are_started` and `stored_was_ok`. -/
example : (starts sampleRun).map Prod.fst = [['u'], ['u']] ∧
    (((World.mk (fun _ => none) []).run sampleRun).jobs[1]?.map fun j => (j.phase, j.received)) = some (.done, [1, 2]) := by decide

/-- Witness of `destinations_untouched_or_complete`. -/
example : (∀ a ∈ starts sampleRun, IsHex a.2.2.2) ∧ ((starts sampleRun).map fun a => a.2.2.2).Nodup ∧
    ∀ a ∈ starts sampleRun, ∀ b ∈ starts sampleRun, ¬ a.2.2.2 <:+ b.2.1 ++ b.2.2.1 := by
  unfold IsHex
  decide

/-- Witness of `Reliable`: the run above with the whole body `[1, 2]`. -/
theorem sample_reliable : Reliable (fun _ => [1, 2]) sampleRun := by
  have split : ∀ pre a post, sampleRun = pre ++ a :: post →
      ∃ n, n < 10 ∧ pre = sampleRun.take n ∧ sampleRun[n]? = some a := by
    intro pre a post e
    refine ⟨pre.length, ?_, by rw [e]; simp, by rw [e]; simp⟩
    have := congrArg List.length e
    simp [sampleRun] at this
    omega
  have key : ∀ n : Nat, n < 10 → (match sampleRun[n]? with
      | some (.respond i _) => decide (i < (starts (sampleRun.take n)).length)
      | some (.chunk i _) => (sampleRun.take n).any (fun a => match a with | .respond k _ => k == i | _ => false)
      | some (.bodyEnds i) => decide (sent i (sampleRun.take n) = [1, 2])
      | _ => true) = true := by decide
  refine ⟨fun pre i ok post e => ?_, fun pre i b post e => ?_, fun pre i post e s _ => ?_⟩
  · obtain ⟨n, h1, rfl, h3⟩ := split _ _ _ e
    have := key n h1
    rw [h3] at this
    exact of_decide_eq_true this
  · obtain ⟨n, h1, rfl, h3⟩ := split _ _ _ e
    have := key n h1
    rw [h3] at this
    obtain ⟨a, ha, hk⟩ := List.any_eq_true.1 this
    cases a with
    | respond k ok =>
      have : k = i := by simpa using hk
      exact ⟨ok, this ▸ ha⟩
    | _ => cases hk
  · obtain ⟨n, h1, rfl, h3⟩ := split _ _ _ e
    have := key n h1
    rw [h3] at this
    exact of_decide_eq_true this

theorem run_chunks (chunks : List Bytes) (fs : Files) (url temp dest : Text) (got : Bytes) (h : fs temp = some got) :
    ∃ fs', (World.mk fs [⟨url, temp, dest, .streaming, got⟩]).run (chunks.map (Action.chunk 0)) =
        ⟨fs', [⟨url, temp, dest, .streaming, got ++ chunks.flatten⟩]⟩ ∧
      fs' temp = some (got ++ chunks.flatten) ∧ ∀ p, p ≠ temp → fs' p = fs p := by
  induction chunks generalizing fs got with
  | nil => exact ⟨fs, by simp [World.run], by simpa using h, fun _ _ => rfl⟩
  | cons c cs ih =>
    obtain ⟨fs', h1, h2, h3⟩ := ih (fs.write temp (some (got ++ c))) (got ++ c) (by simp [Files.write])
    refine ⟨fs', ?_, by simpa using h2, fun p hp => by rw [h3 p hp]; simp [Files.write, hp]⟩
    simp only [World.run, List.map_cons, List.foldl_cons] at h1 ⊢
    simp only [World.step, World.update, List.getElem?_cons_zero, if_pos, h, Option.getD_some, List.set_cons_zero]
    simpa [World.step, World.update] using h1

/-- A download that is not disturbed: started, answered with success, the body received in any chunks. -/
def Spec.received (url dir base hex : Text) (chunks : List Bytes) : List Action :=
  [.start url dir base hex, .respond 0 true] ++ chunks.map (Action.chunk 0)

theorem run_received (fs0 : Files) (url dir base hex : Text) (chunks : List Bytes) :
    ∃ fs', (World.mk fs0 []).run (received url dir base hex chunks) =
        ⟨fs', [⟨url, tempFile dir base hex, dir ++ base, .streaming, chunks.flatten⟩]⟩ ∧
      fs' (tempFile dir base hex) = some chunks.flatten ∧ ∀ p, p ≠ tempFile dir base hex → fs' p = fs0 p := by
  obtain ⟨fs', h1, h2, h3⟩ := run_chunks chunks (fs0.write (tempFile dir base hex) (some [])) url (tempFile dir base hex)
    (dir ++ base) [] (by simp [Files.write])
  refine ⟨fs', ?_, by simpa using h2, fun p hp => by rw [h3 p hp]; simp [Files.write, hp]⟩
  simp only [World.run, received, List.foldl_append] at h1 ⊢
  simp only [List.nil_append] at h1
  rw [← h1]
  simp [World.step, World.update, destFile]

/-- A download whose stream ends and whose rename happens installs what was received, whatever stood there, and
changes no other file. The length announced by the server is not compared with what was received: if the stream
ends early without an error, the truncated file is installed. -/
theorem received_is_installed (fs0 : Files) (url dir base hex : Text) (chunks : List Bytes) (h : IsHex hex) :
    let w := (World.mk fs0 []).run (received url dir base hex chunks ++ [.bodyEnds 0, .rename 0])
    w.files (dir ++ base) = some chunks.flatten ∧ w.files (tempFile dir base hex) = none ∧
    ∀ p, p ≠ dir ++ base → p ≠ tempFile dir base hex → w.files p = fs0 p := by
  have hne := temp_ne_dest dir base hex h
  unfold destFile at hne
  obtain ⟨fs', h1, h2, h3⟩ := run_received fs0 url dir base hex chunks
  simp only [World.run, List.foldl_append] at h1 ⊢
  rw [h1]
  simp [World.step, World.update, Files.write, h2, hne.symm]
  intro p hp hq
  simp [hp, hq, h3 p hq]

/-- A download is reported as done when its file was renamed, and as failed when the server refuses, the stream fails or
the rename is refused; a refused rename leaves every file but the temporary one as it was. -/
theorem download_outcomes (fs0 : Files) (url dir base hex : Text) (chunks : List Bytes) :
    let after := fun acts => (World.mk fs0 []).run acts
    (after (received url dir base hex chunks ++ [.bodyEnds 0, .rename 0])).jobs.map Job.phase = [.done] ∧
    (after (received url dir base hex chunks ++ [.bodyEnds 0, .renameFails 0])).jobs.map Job.phase = [.failed] ∧
    (after (received url dir base hex chunks ++ [.bodyFails 0])).jobs.map Job.phase = [.failed] ∧
    (after [.start url dir base hex, .respond 0 false]).jobs.map Job.phase = [.failed] ∧
    ∀ p, p ≠ tempFile dir base hex →
      (after (received url dir base hex chunks ++ [.bodyEnds 0, .renameFails 0])).files p = fs0 p := by
  obtain ⟨fs', h1, _, h3⟩ := run_received fs0 url dir base hex chunks
  simp only [World.run, List.foldl_append] at h1 ⊢
  rw [h1]
  refine ⟨?_, ?_, ?_, ?_, fun p hp => ?_⟩
  all_goals simp [World.step, World.update]
  exact h3 p hp

theorem failed_stays (fs : Files) (j : Job) (hj : j.phase = .failed) (more : List Action) (hm : starts more = []) :
    (World.mk fs [j]).run more = World.mk fs [j] := by
  have upd : ∀ (i : Nat) (f : Job → Files × Job), f j = (fs, j) → (World.mk fs [j]).update i f = World.mk fs [j] := by
    intro i f hf
    unfold World.update
    cases i with
    | zero => simp [hf]
    | succ i => simp
  induction more with
  | nil => rfl
  | cons a more ih =>
    have hs : (World.mk fs [j]).step a = World.mk fs [j] := by
      cases a with
      | start => simp [starts] at hm
      | respond i ok => exact upd i _ (by simp [hj])
      | chunk i b => exact upd i _ (by simp [hj])
      | bodyEnds i => exact upd i _ (by simp [hj])
      | bodyFails i => exact upd i _ (by simp [hj])
      | rename i => exact upd i _ (by simp [hj])
      | renameFails i => exact upd i _ (by simp [hj])
    have := ih (by cases a <;> simp_all [starts])
    simp only [World.run, List.foldl_cons] at this ⊢
    rw [hs, this]

/-- A download whose stream fails leaves the destination, and every file but its temporary one, as it was, and
whatever happens to it later changes nothing. The temporary file stays, with what was received. -/
theorem failed_download_leaves_temp (fs0 : Files) (url dir base hex : Text) (chunks : List Bytes) (h : IsHex hex)
    (more : List Action) (hm : starts more = []) :
    let w := (World.mk fs0 []).run (received url dir base hex chunks ++ .bodyFails 0 :: more)
    w.files (dir ++ base) = fs0 (dir ++ base) ∧ w.files (tempFile dir base hex) = some chunks.flatten ∧
    ∀ p, p ≠ tempFile dir base hex → w.files p = fs0 p := by
  have hne := temp_ne_dest dir base hex h
  unfold destFile at hne
  obtain ⟨fs', h1, h2, h3⟩ := run_received fs0 url dir base hex chunks
  have h4 := failed_stays fs' ⟨url, tempFile dir base hex, dir ++ base, .failed, chunks.flatten⟩ rfl more hm
  simp only [World.run, List.foldl_append, List.foldl_cons] at h1 h4 ⊢
  rw [h1]
  have h5 : (World.mk fs' [⟨url, tempFile dir base hex, dir ++ base, .streaming, chunks.flatten⟩]).step (.bodyFails 0) =
      ⟨fs', [⟨url, tempFile dir base hex, dir ++ base, .failed, chunks.flatten⟩]⟩ := by simp [World.step, World.update]
  rw [h5, h4]
  exact ⟨h3 _ hne.symm, h2, h3⟩

/-- A download that is refused changes no file, whatever happens to it later. -/
theorem refused_download_changes_nothing (fs0 : Files) (url dir base hex : Text)
    (more : List Action) (hm : starts more = []) :
    ((World.mk fs0 []).run (.start url dir base hex :: .respond 0 false :: more)).files = fs0 := by
  have h4 := failed_stays fs0 ⟨url, tempFile dir base hex, destFile dir base, .failed, []⟩ rfl more hm
  simp only [World.run, List.foldl_cons] at h4 ⊢
  have h5 : ((World.mk fs0 []).step (.start url dir base hex)).step (.respond 0 false) =
      ⟨fs0, [⟨url, tempFile dir base hex, destFile dir base, .failed, []⟩]⟩ := by simp [World.step, World.update]
  rw [h5, h4]

/-- Witness of `failed_download_leaves_temp` and `refused_download_changes_nothing`. -/
example : starts [.bodyEnds 0, .rename 0, .chunk 0 [1]] = [] := rfl

/-- Witness of `received_is_installed` and `failed_download_leaves_temp`: the body `[1, 2, 3]` cut after `[1, 2]`. -/
example : IsHex "0000000000".toList ∧
    ((World.mk (fun _ => none) []).run (received ['u'] ['/'] ['d'] "0000000000".toList [[1], [2]] ++ [.bodyEnds 0, .rename 0])).files
      ['/', 'd'] = some [1, 2] ∧
    ((World.mk (fun _ => none) []).run (received ['u'] ['/'] ['d'] "0000000000".toList [[1], [2]] ++ [.bodyFails 0])).files
      "/d0000000000".toList = some [1, 2] := by
  unfold IsHex
  decide

end Verif.Editor.Download
