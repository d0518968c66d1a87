import Verif.Vfs.Spec

set_option linter.unusedSectionVars false

namespace Verif.Vfs

variable {P C : Type} [DecidableEq P] [DecidableEq C]

theorem indexOf_eq_none {p : P} {l : List P} : indexOf p l = none ↔ p ∉ l := by
  induction l with
  | nil => simp [indexOf]
  | cons q qs ih =>
    by_cases h : q = p
    · simp [indexOf, h]
    · simp [indexOf, h, ih, Ne.symm h]

theorem indexOf_some {p : P} {l : List P} {i : Nat} (h : indexOf p l = some i) : l[i]? = some p := by
  induction l generalizing i with
  | nil => simp [indexOf] at h
  | cons q qs ih =>
    unfold indexOf at h
    split at h
    · simp at h; subst h; simp [*]
    · simp only [Option.map_eq_some_iff] at h
      obtain ⟨j, hj, rfl⟩ := h
      simpa using ih hj

theorem indexOf_of_getElem {p : P} {l : List P} {i : Nat} (hn : l.Nodup) (h : l[i]? = some p) :
    indexOf p l = some i := by
  induction l generalizing i with
  | nil => simp at h
  | cons q qs ih =>
    cases i with
    | zero => simp at h; simp [indexOf, h]
    | succ i =>
      simp at h
      have hm : p ∈ qs := List.mem_of_getElem? h
      have hq : q ≠ p := fun e => (List.nodup_cons.1 hn).1 (e ▸ hm)
      simp [indexOf, hq, ih (List.nodup_cons.1 hn).2 h]

/-- The invariant of the store. -/
structure Ok (v : Vfs P C) : Prop where
  nodup : v.interner.Nodup
  len : v.data.length = v.interner.length
  bound : v.interner.length ≤ maxId

/-- Contents by path. -/
def at_ (v : Vfs P C) (p : P) : Option C :=
  match indexOf p v.interner with
  | none => none
  | some i => v.data[i]?.join

theorem ok_empty : Ok (Vfs.empty : Vfs P C) := ⟨by simp [Vfs.empty], rfl, by simp [Vfs.empty, maxId]⟩

/-- The result of `allocFileId` on a good store. -/
theorem alloc_spec (v : Vfs P C) (hv : Ok v) (p : P) :
    (∃ i, indexOf p v.interner = some i ∧ i < v.data.length ∧ v.allocFileId p = some (v, i)) ∨
    (p ∉ v.interner ∧ v.interner.length < maxId ∧
      v.allocFileId p = some ({ v with interner := v.interner ++ [p], data := v.data ++ [none] }, v.interner.length)) ∨
    (p ∉ v.interner ∧ v.interner.length = maxId ∧ v.allocFileId p = none) := by
  cases h : indexOf p v.interner with
  | some i =>
    left
    have hlt : i < v.interner.length := by
      have := indexOf_some h
      exact (List.getElem?_eq_some_iff.1 this).1
    have hb := hv.bound
    have hl := hv.len
    refine ⟨i, rfl, by omega, ?_⟩
    unfold Vfs.allocFileId intern
    rw [h]
    simp only
    rw [if_pos (by omega)]
    simp only
    rw [show max v.data.length (i + 1) = v.data.length by omega]
    simp [resize]
  | none =>
    have hp := indexOf_eq_none.1 h
    right
    have hl := hv.len
    by_cases hb : v.interner.length < maxId
    · left
      refine ⟨hp, hb, ?_⟩
      unfold Vfs.allocFileId intern
      rw [h]
      simp only
      rw [if_pos hb]
      simp only
      rw [show max v.data.length (v.interner.length + 1) = v.data.length + 1 by omega]
      simp [resize]
    · right
      have := hv.bound
      refine ⟨hp, by omega, ?_⟩
      unfold Vfs.allocFileId intern
      rw [h]
      simp only
      rw [if_neg hb]

theorem indexOf_append_self {p : P} {l : List P} (h : p ∉ l) : indexOf p (l ++ [p]) = some l.length := by
  induction l with
  | nil => simp [indexOf]
  | cons q qs ih =>
    simp at h
    simp [indexOf, Ne.symm h.1, ih h.2]

theorem indexOf_append_of_some {p : P} {l l' : List P} {i : Nat} (h : indexOf p l = some i) :
    indexOf p (l ++ l') = some i := by
  induction l generalizing i with
  | nil => simp [indexOf] at h
  | cons q qs ih =>
    simp only [List.cons_append, indexOf] at h ⊢
    split at h
    · rename_i hq; rw [if_pos hq]; exact h
    · rename_i hq
      rw [if_neg hq]
      simp only [Option.map_eq_some_iff] at h ⊢
      obtain ⟨j, hj, rfl⟩ := h
      exact ⟨j, ih hj, rfl⟩

theorem indexOf_append_ne {p q : P} {l : List P} (h : q ≠ p) : indexOf p (l ++ [q]) = indexOf p l := by
  induction l with
  | nil => simp [indexOf, h]
  | cons r rs ih => simp only [List.cons_append, indexOf, ih]

/-- The store after making sure that `p` has an id. -/
theorem alloc_ok {v v1 : Vfs P C} {p : P} {i : Nat} (hv : Ok v) (h : v.allocFileId p = some (v1, i)) :
    Ok v1 ∧ indexOf p v1.interner = some i ∧ i < v1.data.length ∧ v1.changes = v.changes ∧
    v.interner <+: v1.interner ∧
    (∀ j : Nat, v1.data[j]?.join = v.data[j]?.join) ∧ (∀ q, at_ v1 q = at_ v q) := by
  rcases alloc_spec v hv p with ⟨j, h1, h2, h3⟩ | ⟨h1, h2, h3⟩ | ⟨h1, h2, h3⟩
  · rw [h3] at h
    simp at h
    obtain ⟨rfl, rfl⟩ := h
    exact ⟨hv, h1, h2, rfl, List.prefix_refl _, fun _ => rfl, fun _ => rfl⟩
  · rw [h3] at h
    simp at h
    obtain ⟨rfl, rfl⟩ := h
    have hl := hv.len
    have hd : ∀ j : Nat, (v.data ++ [none])[j]?.join = v.data[j]?.join := by
      intro j
      by_cases hj : j < v.data.length
      · rw [List.getElem?_append_left hj]
      · rw [List.getElem?_append_right (by omega), List.getElem?_eq_none (l := v.data) (by omega)]
        cases hk : j - v.data.length with
        | zero => simp
        | succ k => simp
    refine ⟨⟨?_, by simp [hl], by simp; omega⟩, indexOf_append_self h1, by simp; omega, rfl,
      List.prefix_append _ _, hd, ?_⟩
    · simp only
      rw [List.nodup_append]
      exact ⟨hv.nodup, by simp, fun a ha b hb => by simp at hb; rintro rfl; exact h1 (hb ▸ ha)⟩
    · intro q
      unfold at_
      simp only
      by_cases hq : p = q
      · subst hq
        rw [indexOf_append_self h1, indexOf_eq_none.2 h1]
        simp only [hd]
        rw [List.getElem?_eq_none (by omega)]; rfl
      · rw [indexOf_append_ne hq]
        cases indexOf q v.interner with
        | none => rfl
        | some j => simp only [hd]
  · rw [h3] at h; simp at h

/-- Everything about one write. -/
theorem set_spec {v v' : Vfs P C} {p : P} {c : Option C} {b : Bool} (hv : Ok v)
    (h : v.setFileContents p c = some (v', b)) :
    Ok v' ∧ v.interner <+: v'.interner ∧ p ∈ v'.interner ∧
    (∀ q, at_ v' q = if p = q then c else at_ v q) ∧
    (∀ k, kindOf (at_ v p) c = some k → b = true ∧ ∃ i, indexOf p v'.interner = some i ∧ v'.changes = v.changes ++ [⟨i, k⟩] ∧
      (∀ j : Nat, v'.data[j]?.join = if j = i then c else v.data[j]?.join)) ∧
    (kindOf (at_ v p) c = none → b = false ∧ v'.changes = v.changes ∧ ∀ j : Nat, v'.data[j]?.join = v.data[j]?.join) := by
  unfold Vfs.setFileContents at h
  cases ha : v.allocFileId p with
  | none => rw [ha] at h; simp at h
  | some vi =>
    obtain ⟨v1, i⟩ := vi
    rw [ha] at h
    simp only at h
    obtain ⟨hok, hidx, hlt, hch, hpre, hdat, hat⟩ := alloc_ok hv ha
    have hp1 : p ∈ v1.interner := List.mem_of_getElem? (indexOf_some hidx)
    obtain ⟨old, hold⟩ : ∃ old, v1.data[i]? = some old := ⟨v1.data[i], List.getElem?_eq_getElem hlt⟩
    have hold' : at_ v p = old := by
      rw [← hat p, at_, hidx]; simp only [hold]; rfl
    simp only [Vfs.get, hold] at h
    -- the two possible outcomes
    have same : old = c → v' = v1 → b = false → (Ok v' ∧ v.interner <+: v'.interner ∧ p ∈ v'.interner ∧
        (∀ q, at_ v' q = if p = q then c else at_ v q) ∧
        (∀ k, kindOf (at_ v p) c = some k → b = true ∧ ∃ i, indexOf p v'.interner = some i ∧ v'.changes = v.changes ++ [⟨i, k⟩] ∧
          (∀ j : Nat, v'.data[j]?.join = if j = i then c else v.data[j]?.join)) ∧
        (kindOf (at_ v p) c = none → b = false ∧ v'.changes = v.changes ∧ ∀ j : Nat, v'.data[j]?.join = v.data[j]?.join)) := by
      rintro rfl rfl rfl
      refine ⟨hok, hpre, hp1, ?_, ?_, ?_⟩
      · intro q
        by_cases hq : p = q
        · subst hq; rw [if_pos rfl, hat, hold']
        · rw [if_neg hq, hat]
      · intro k hk
        rw [hold'] at hk
        cases old <;> simp [kindOf] at hk
      · intro _; exact ⟨rfl, hch, hdat⟩
    have upd : ∀ kind, kindOf old c = some kind →
        v' = { v1 with data := v1.data.set i c, changes := v1.changes ++ [⟨i, kind⟩] } → b = true →
        (Ok v' ∧ v.interner <+: v'.interner ∧ p ∈ v'.interner ∧
        (∀ q, at_ v' q = if p = q then c else at_ v q) ∧
        (∀ k, kindOf (at_ v p) c = some k → b = true ∧ ∃ i, indexOf p v'.interner = some i ∧ v'.changes = v.changes ++ [⟨i, k⟩] ∧
          (∀ j : Nat, v'.data[j]?.join = if j = i then c else v.data[j]?.join)) ∧
        (kindOf (at_ v p) c = none → b = false ∧ v'.changes = v.changes ∧ ∀ j : Nat, v'.data[j]?.join = v.data[j]?.join)) := by
      rintro kind hkind rfl rfl
      have hset : ∀ j : Nat, (v1.data.set i c)[j]?.join = if j = i then c else v1.data[j]?.join := by
        intro j
        rw [List.getElem?_set]
        by_cases hj : i = j
        · subst hj; simp [hlt]
        · rw [if_neg hj, if_neg (Ne.symm hj)]
      refine ⟨⟨hok.nodup, by simp [hok.len], hok.bound⟩, hpre, hp1, ?_, ?_, ?_⟩
      · intro q
        rw [← hat q]
        unfold at_
        simp only
        by_cases hq : p = q
        · subst hq; rw [hidx]; simp [hset]
        · rw [if_neg hq]
          cases hqi : indexOf q v1.interner with
          | none => rfl
          | some j =>
            have : j ≠ i := by
              rintro rfl
              have h1 := indexOf_some hidx
              have h2 := indexOf_some hqi
              rw [h1] at h2
              simp at h2
              exact hq h2
            simp only [hset, if_neg this]
      · intro k hk
        rw [hold', hkind] at hk
        simp at hk
        subst hk
        refine ⟨rfl, i, hidx, by simp [hch], ?_⟩
        intro j
        rw [hset, hdat]
      · intro hk
        rw [hold', hkind] at hk
        simp at hk
    cases old with
    | none =>
      cases c with
      | none => simp at h; exact same rfl h.1.symm h.2
      | some n => simp at h; exact upd .create rfl h.1.symm h.2
    | some o =>
      cases c with
      | none => simp at h; exact upd .delete rfl h.1.symm h.2
      | some n =>
        simp only at h
        by_cases hon : o = n
        · rw [if_pos hon] at h
          simp at h
          exact same (by rw [hon]) h.1.symm h.2
        · rw [if_neg hon] at h
          simp at h
          exact upd .modify (by simp [kindOf, hon]) h.1.symm h.2

theorem set_total (v : Vfs P C) (hv : Ok v) (p : P) (c : Option C)
    (hb : p ∈ v.interner ∨ v.interner.length < maxId) : ∃ r, v.setFileContents p c = some r := by
  have : ∃ v1 i, v.allocFileId p = some (v1, i) := by
    rcases alloc_spec v hv p with ⟨j, _, _, h3⟩ | ⟨h1, h2, h3⟩ | ⟨h1, h2, h3⟩
    · exact ⟨_, _, h3⟩
    · exact ⟨_, _, h3⟩
    · exfalso
      rcases hb with hb | hb
      · exact h1 hb
      · omega
  obtain ⟨v1, i, ha⟩ := this
  obtain ⟨_, _, hlt, _⟩ := alloc_ok hv ha
  unfold Vfs.setFileContents
  rw [ha]
  simp only [Vfs.get, List.getElem?_eq_getElem hlt]
  split
  · exact ⟨_, rfl⟩
  · exact ⟨_, rfl⟩
  · exact ⟨_, rfl⟩
  · split <;> exact ⟨_, rfl⟩

/-- A write adds at most the written path. -/
theorem set_interner {v v' : Vfs P C} {p : P} {c : Option C} {b : Bool} (hv : Ok v)
    (hset : v.setFileContents p c = some (v', b)) {x : P} (hx : x ∈ v'.interner) : x = p ∨ x ∈ v.interner := by
  unfold Vfs.setFileContents at hset
  cases ha : v.allocFileId p with
  | none => rw [ha] at hset; simp at hset
  | some vi =>
    obtain ⟨v2, i⟩ := vi
    rw [ha] at hset
    have h12 : v'.interner = v2.interner := by
      simp only at hset
      split at hset
      · simp at hset
      · split at hset
        · simp at hset; rw [← hset.1]
        · simp at hset; rw [← hset.1]
        · simp at hset; rw [← hset.1]
        · split at hset <;> (simp at hset; rw [← hset.1])
    rw [h12] at hx
    rcases alloc_spec v hv p with ⟨j, _, _, h3⟩ | ⟨_, _, h3⟩ | ⟨_, _, h3⟩
    · rw [h3] at ha; simp at ha; exact Or.inr (by rw [ha.1]; exact hx)
    · rw [h3] at ha
      simp at ha
      rw [← ha.1] at hx
      simp at hx
      exact hx.symm
    · rw [h3] at ha; simp at ha

/-- What holds after running further operations from a good store. -/
theorem runFrom_spec (ops : List (Op P C)) {v v' : Vfs P C} (hv : Ok v)
    (h : ops.foldlM step v = some v') :
    Ok v' ∧ v.interner <+: v'.interner ∧ (∀ p, at_ v' p = lastWriteFrom (at_ v p) p ops) := by
  induction ops generalizing v with
  | nil => simp at h; subst h; exact ⟨hv, List.prefix_refl _, fun _ => rfl⟩
  | cons op ops ih =>
    simp only [List.foldlM_cons] at h
    cases hs : step v op with
    | none => rw [hs] at h; simp at h
    | some v1 =>
      rw [hs] at h
      simp only [Option.bind_eq_bind, Option.bind_some] at h
      cases op with
      | take =>
        simp [step, Vfs.takeChanges] at hs
        subst hs
        have hv1 : Ok ({ v with changes := [] } : Vfs P C) := ⟨hv.nodup, hv.len, hv.bound⟩
        obtain ⟨h1, h2, h3⟩ := ih hv1 h
        exact ⟨h1, h2, h3⟩
      | set p c =>
        simp only [step, Option.map_eq_some_iff] at hs
        obtain ⟨⟨v2, b⟩, hset, rfl⟩ := hs
        obtain ⟨k1, k2, _, k4, _⟩ := set_spec hv hset
        obtain ⟨h1, h2, h3⟩ := ih k1 h
        refine ⟨h1, k2.trans h2, ?_⟩
        intro q
        rw [h3]
        simp only [lastWriteFrom, k4]

theorem run_append (a b : List (Op P C)) : run (a ++ b) = (run a).bind (fun v => b.foldlM step v) := by
  simp [run, List.foldlM_append]

theorem run_ok {ops : List (Op P C)} {v : Vfs P C} (h : run ops = some v) : Ok v :=
  (runFrom_spec ops ok_empty h).1

theorem run_at {ops : List (Op P C)} {v : Vfs P C} (h : run ops = some v) (p : P) :
    at_ v p = lastWrite ops p := (runFrom_spec ops ok_empty h).2.2 p

theorem fileId_eq (v : Vfs P C) (hv : Ok v) (p : P) :
    v.fileId p = some (match indexOf p v.interner with
      | none => none
      | some i => if (at_ v p).isSome then some i else none) := by
  unfold Vfs.fileId Vfs.get
  cases h : indexOf p v.interner with
  | none => rfl
  | some i =>
    have hlt : i < v.data.length := by
      have := (List.getElem?_eq_some_iff.1 (indexOf_some h)).1
      rw [hv.len]; exact this
    simp only [List.getElem?_eq_getElem hlt, at_, h, Option.join_some]

theorem fileId_some {v : Vfs P C} (hv : Ok v) {p : P} {i : Nat} (h : v.fileId p = some (some i)) :
    indexOf p v.interner = some i ∧ (at_ v p).isSome := by
  rw [fileId_eq v hv p] at h
  cases hi : indexOf p v.interner with
  | none => rw [hi] at h; simp at h
  | some j =>
    rw [hi] at h
    simp at h
    exact ⟨by rw [h.2], h.1⟩

theorem prefix_getElem? {l l' : List P} (h : l <+: l') {i : Nat} {p : P} (hi : l[i]? = some p) :
    l'[i]? = some p := by
  obtain ⟨r, rfl⟩ := h
  rw [List.getElem?_append_left (List.getElem?_eq_some_iff.1 hi).1, hi]

theorem mapM_total {α β : Type} (f : α → Option β) (l : List α) (h : ∀ a ∈ l, (f a).isSome) :
    ∃ r, l.mapM f = some r ∧ r.length = l.length ∧ ∀ i (hi : i < l.length), r[i]? = f l[i] := by
  induction l with
  | nil => exact ⟨[], rfl, rfl, by simp⟩
  | cons a l ih =>
    obtain ⟨r, h1, h2, h3⟩ := ih (fun x hx => h x (by simp [hx]))
    obtain ⟨b, hb⟩ := Option.isSome_iff_exists.1 (h a (by simp))
    refine ⟨b :: r, by simp [List.mapM_cons, hb, h1], by simp [h2], ?_⟩
    intro i hi
    cases i with
    | zero => simp [hb]
    | succ i => simp; exact h3 i (by simpa using hi)

theorem mapM_pair {α β : Type} (f : α → Option β) (l : List α) (r : List (α × β))
    (h : l.mapM (fun a => (f a).map (fun b => (a, b))) = some r) :
    r.map (·.1) = l ∧ ∀ a b, (a, b) ∈ r ↔ a ∈ l ∧ f a = some b := by
  induction l generalizing r with
  | nil => simp at h; subst h; simp
  | cons x l ih =>
    rw [List.mapM_cons] at h
    cases hx : f x with
    | none => rw [hx] at h; simp at h
    | some b =>
      rw [hx] at h
      simp only [Option.map_some, Option.pure_def, Option.bind_eq_bind, Option.bind_some] at h
      cases hr : l.mapM (fun a => (f a).map (fun b => (a, b))) with
      | none => rw [hr] at h; simp at h
      | some r' =>
        rw [hr] at h
        simp at h
        subst h
        obtain ⟨h1, h2⟩ := ih r' hr
        refine ⟨by simp [h1], ?_⟩
        intro a b'
        simp only [List.mem_cons, Prod.mk.injEq, h2]
        constructor
        · rintro (⟨rfl, rfl⟩ | ⟨h3, h4⟩)
          · exact ⟨Or.inl rfl, hx⟩
          · exact ⟨Or.inr h3, h4⟩
        · rintro ⟨rfl | h3, h4⟩
          · rw [hx] at h4; simp at h4; exact Or.inl ⟨rfl, h4.symm⟩
          · exact Or.inr ⟨h3, h4⟩

end Verif.Vfs
