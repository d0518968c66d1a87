import Verif.FileSet.Lemmas

/-! Properties C16, C17 and C18: assigning files to sets. -/

namespace Verif.FileSet

open Verif.Vfs

/-! ## Specification -/

/-- Root `r` is configured for set number `i`. -/
def RootOf (roots : List (List VfsPath)) (i : Nat) (r : VfsPath) : Prop :=
  ∃ paths, roots[i]? = some paths ∧ r ∈ paths

/-- The bytes of a path, without its kind. -/
def VfsPath.bytes : VfsPath → Bytes
  | .pathBuf bs => bs
  | .virtualPath bs => bs

/-- Both paths are on disk, or both are virtual. -/
def SameKind : VfsPath → VfsPath → Prop
  | .pathBuf _, .pathBuf _ => True
  | .virtualPath _, .virtualPath _ => True
  | _, _ => False

/-- The bytes of `r` start the bytes of `p` and they are of the same kind. -/
def Matches (r p : VfsPath) : Prop := SameKind r p ∧ r.bytes <+: p.bytes

/-- `p` is the directory `r` or lies inside it: after the bytes of `r` comes nothing or a
separator (`/` is 47). -/
def Inside (r p : VfsPath) : Prop :=
  SameKind r p ∧ (p.bytes = r.bytes ∨ ∃ rest, p.bytes = r.bytes ++ 47 :: rest)

/-! ## Proofs -/

theorem matches_iff (r p : VfsPath) : Matches r p ↔ r.encode <+: p.encode := by
  cases r <;> cases p <;> simp [Matches, SameKind, VfsPath.bytes, VfsPath.encode]

theorem matches_len {r p : VfsPath} : r.encode.length = r.bytes.length + 1 := by
  cases r <;> simp [VfsPath.encode, VfsPath.bytes]

/-- Building a configuration never panics. -/
theorem build_total (roots : List (List VfsPath)) : ∃ c, build roots = some c := by
  obtain ⟨c, h, _⟩ := build_spec roots
  exact ⟨c, h⟩

/-- C17: a path goes to the set of the longest matching root, the first such set if the root
was given for several, and to the extra last set exactly when no root matches. -/
theorem longest_root_wins (roots : List (List VfsPath)) (c : FileSetConfig) (hc : build roots = some c)
    (p : VfsPath) :
    ((∀ i r, RootOf roots i r → ¬ Matches r p) ∧ c.classify p = roots.length) ∨
    (∃ r, RootOf roots (c.classify p) r ∧ Matches r p ∧
      ∀ i r', RootOf roots i r' → Matches r' p →
        r'.bytes.length < r.bytes.length ∨ (r' = r ∧ c.classify p ≤ i)) := by
  obtain ⟨c', hb, hn, hsort, hsub, hcov⟩ := build_spec roots
  rw [hb] at hc
  simp at hc
  subst hc
  have hcl : c'.classify p = match (c'.map.filter (fun e => accepts p.encode e.1)).getLast? with
      | none => roots.length
      | some e => e.2 := by
    unfold FileSetConfig.classify
    rw [foldl_last, hn, Nat.add_sub_cancel]
    cases (c'.map.filter (fun e => accepts p.encode e.1)).getLast? <;> rfl
  cases hl : (c'.map.filter (fun e => accepts p.encode e.1)).getLast? with
  | none =>
    left
    rw [hl] at hcl
    refine ⟨?_, hcl⟩
    rintro i r ⟨paths, h1, h2⟩ hm
    rw [List.getLast?_eq_none_iff] at hl
    obtain ⟨d, hd, hd1, _⟩ := hcov (r.encode, i) ((mem_collect roots 0 _ _).2 ⟨i, paths, r, h1, h2, rfl, by omega⟩)
    have : d ∈ c'.map.filter (fun e => accepts p.encode e.1) := by
      rw [List.mem_filter]
      exact ⟨hd, (accepts_iff _ _).2 (by rw [hd1]; exact (matches_iff r p).1 hm)⟩
    rw [hl] at this
    simp at this
  | some e =>
    right
    rw [hl] at hcl
    simp only at hcl
    obtain ⟨init, hinit⟩ := List.getLast?_eq_some_iff.1 hl
    have hmem : e ∈ c'.map.filter (fun e => accepts p.encode e.1) := by rw [hinit]; simp
    obtain ⟨he1, he2⟩ := List.mem_filter.1 hmem
    obtain ⟨j, paths, r, g1, g2, g3, g4⟩ := (mem_collect roots 0 e.1 e.2).1 (hsub e he1)
    have hj : e.2 = j := by omega
    rw [hcl, hj]
    have hrp : Matches r p := (matches_iff r p).2 (by rw [← g3]; exact (accepts_iff _ _).1 he2)
    refine ⟨r, ⟨paths, g1, g2⟩, hrp, ?_⟩
    rintro i r' ⟨paths', h1, h2⟩ hm
    obtain ⟨d, hd, hd1, hd2⟩ := hcov (r'.encode, i) ((mem_collect roots 0 _ _).2 ⟨i, paths', r', h1, h2, rfl, by omega⟩)
    have hdm : d ∈ c'.map.filter (fun e => accepts p.encode e.1) := by
      rw [List.mem_filter]
      exact ⟨hd, (accepts_iff _ _).2 (by rw [hd1]; exact (matches_iff r' p).1 hm)⟩
    rw [hinit] at hdm
    have hps : (init ++ [e]).Pairwise KeyLt := by rw [← hinit]; exact hsort.filter _
    rcases List.mem_append.1 hdm with hd' | hd'
    · left
      have hlt := (List.pairwise_append.1 hps).2.2 d hd' e (by simp)
      have hpre := prefix_of_prefix_le (t := p.encode) (by rw [hd1]; exact (matches_iff r' p).1 hm)
        ((accepts_iff _ _).1 he2) hlt.1
      have hlen : d.1.length < e.1.length := by
        rcases Nat.lt_or_ge d.1.length e.1.length with h | h
        · exact h
        · exact absurd (hpre.eq_of_length_le h) hlt.2
      rw [hd1, g3, matches_len (p := p), matches_len (p := p)] at hlen
      simp at hlen
      omega
    · right
      simp at hd'
      subst hd'
      constructor
      · have : r'.encode = r.encode := by rw [← g3, hd1]
        cases r <;> cases r' <;> simp [VfsPath.encode] at this <;> simp [this]
      · rw [← hj]; exact hd2

/-- Two nested roots and one root given twice. -/
def sampleRoots : List (List VfsPath) :=
  [[.pathBuf [47, 97]], [.pathBuf [47, 97, 47, 98], .virtualPath [47]], [.pathBuf [47, 97]]]

example : ∃ c, build sampleRoots = some c := build_total _

/-- C16: the classification is always one of the sets. -/
theorem classify_lt (roots : List (List VfsPath)) (c : FileSetConfig) (hc : build roots = some c)
    (p : VfsPath) : c.classify p < c.nFileSets := by
  obtain ⟨c', hb, hn, _⟩ := build_spec roots
  have : c' = c := by rw [hb] at hc; simpa using hc
  subst this
  rw [hn]
  rcases longest_root_wins roots c' hb p with ⟨_, h⟩ | ⟨r, ⟨paths, h, _⟩, _⟩
  · omega
  · have := (List.getElem?_eq_some_iff.1 h).1
    omega

theorem place_all (c : FileSetConfig) (hlt : ∀ p, c.classify p < c.nFileSets) (files : List (Nat × VfsPath))
    (hn1 : (files.map (·.1)).Nodup) (hn2 : (files.map (·.2)).Nodup) (res : List FileSet)
    (hres : res.length = c.nFileSets) :
    ∃ out, files.foldlM c.place res = some out ∧ out.length = c.nFileSets ∧
      ∀ k (s s' : FileSet), res[k]? = some s → out[k]? = some s' →
        (∀ id p, s'.paths.get id = some p ↔
          ((id, p) ∈ files ∧ c.classify p = k) ∨ ((∀ q, (id, q) ∈ files → c.classify q ≠ k) ∧ s.paths.get id = some p)) ∧
        (∀ p id, s'.files.get p = some id ↔
          ((id, p) ∈ files ∧ c.classify p = k) ∨ ((∀ i, (i, p) ∈ files → c.classify p ≠ k) ∧ s.files.get p = some id)) := by
  induction files generalizing res with
  | nil =>
    refine ⟨res, rfl, hres, ?_⟩
    intro k s s' h1 h2
    rw [h1] at h2
    simp at h2
    subst h2
    simp
  | cons f files ih =>
    obtain ⟨fid, fp⟩ := f
    have hl : c.classify fp < res.length := by rw [hres]; exact hlt fp
    simp only [List.foldlM_cons, FileSetConfig.place, List.getElem?_eq_getElem hl, Option.bind_eq_bind,
      Option.bind_some]
    simp only [List.map_cons, List.nodup_cons] at hn1 hn2
    obtain ⟨out, ho1, ho2, ho3⟩ := ih hn1.2 hn2.2
      (res.set (c.classify fp) ((res[c.classify fp]).insert fid fp)) (by simp [hres])
    refine ⟨out, ho1, ho2, ?_⟩
    have hfid : ∀ q, (fid, q) ∉ files := fun q hq => hn1.1 (List.mem_map.2 ⟨_, hq, rfl⟩)
    have hfp : ∀ i, (i, fp) ∉ files := fun i hi => hn2.1 (List.mem_map.2 ⟨_, hi, rfl⟩)
    intro k s s' h1 h2
    by_cases hk : c.classify fp = k
    · subst hk
      have hs : s = res[c.classify fp] := by
        rw [List.getElem?_eq_getElem hl] at h1; simpa using h1.symm
      subst hs
      obtain ⟨a1, a2⟩ := ho3 (c.classify fp) ((res[c.classify fp]).insert fid fp) s' (by rw [List.getElem?_set]; simp [hl]) h2
      constructor
      · intro id p
        rw [a1]
        simp only [FileSet.insert, AMap.get_insert, List.mem_cons, Prod.mk.injEq]
        by_cases hid : id = fid
        · subst hid
          simp only [if_true, Option.some.injEq]
          constructor
          · rintro (⟨h, _⟩ | ⟨_, rfl⟩)
            · exact absurd h (hfid p)
            · left; exact ⟨Or.inl ⟨trivial, rfl⟩, rfl⟩
          · rintro (⟨⟨_, rfl⟩ | h, _⟩ | ⟨h, _⟩)
            · right; exact ⟨fun q hq => absurd hq (hfid q), rfl⟩
            · exact absurd h (hfid p)
            · exact absurd rfl (h fp (Or.inl ⟨trivial, rfl⟩))
        · simp [hid, Ne.symm hid]
      · intro p id
        rw [a2]
        simp only [FileSet.insert, AMap.get_insert, List.mem_cons, Prod.mk.injEq]
        by_cases hp : p = fp
        · subst hp
          simp only [if_true, Option.some.injEq]
          constructor
          · rintro (⟨h, _⟩ | ⟨_, rfl⟩)
            · exact absurd h (hfp id)
            · left; exact ⟨Or.inl ⟨rfl, trivial⟩, trivial⟩
          · rintro (⟨⟨rfl, _⟩ | h, _⟩ | ⟨h, _⟩)
            · right; exact ⟨fun q hq => absurd hq (hfp q), rfl⟩
            · exact absurd h (hfp id)
            · exact absurd rfl (h fid (Or.inl ⟨rfl, trivial⟩))
        · simp [hp, Ne.symm hp]
    · obtain ⟨a1, a2⟩ := ho3 k s s' (by rw [List.getElem?_set, if_neg hk]; exact h1) h2
      constructor
      · intro id p
        rw [a1]
        constructor
        · rintro (⟨h, h'⟩ | ⟨h, h'⟩)
          · left; exact ⟨by simp [h], h'⟩
          · right
            refine ⟨?_, h'⟩
            intro q hq
            rcases List.mem_cons.1 hq with he | hq
            · simp at he; rw [he.2]; exact hk
            · exact h q hq
        · rintro (⟨h, h'⟩ | ⟨h, h'⟩)
          · left
            rcases List.mem_cons.1 h with he | h
            · simp at he; rw [he.2] at h'; exact absurd h' hk
            · exact ⟨h, h'⟩
          · right; exact ⟨fun q hq => h q (by simp [hq]), h'⟩
      · intro p id
        rw [a2]
        constructor
        · rintro (⟨h, h'⟩ | ⟨h, h'⟩)
          · left; exact ⟨by simp [h], h'⟩
          · right
            refine ⟨?_, h'⟩
            intro i hi
            rcases List.mem_cons.1 hi with he | hi
            · simp at he; rw [he.2]; exact hk
            · exact h i hi
        · rintro (⟨h, h'⟩ | ⟨h, h'⟩)
          · left
            rcases List.mem_cons.1 h with he | h
            · simp at he; rw [he.2] at h'; exact absurd h' hk
            · exact ⟨h, h'⟩
          · right; exact ⟨fun i hi => h i (by simp [hi]), h'⟩

/-- C16: partitioning any store by any configuration does not panic, makes one more set than
configured, and set `k` holds a file exactly when the file is live and classified as `k`;
both directions of the set's maps agree with the store. -/
theorem partition_exact {C : Type} [DecidableEq C] (roots : List (List VfsPath)) (c : FileSetConfig)
    (hc : build roots = some c) (ops : List (Op VfsPath C)) (v : Vfs VfsPath C) (hv : run ops = some v) :
    ∃ sets, c.partition v = some sets ∧ sets.length = roots.length + 1 ∧
      ∀ (k : Nat) (s : FileSet), sets[k]? = some s →
        (∀ id p, s.pathForFile id = some p ↔ v.fileId p = some (some id) ∧ c.classify p = k) ∧
        (∀ p id, s.fileForPath p = some id ↔ v.fileId p = some (some id) ∧ c.classify p = k) := by
  obtain ⟨files, hf, hn1, hn2, hiff⟩ := iter_lists_live_files ops v hv
  have hn : c.nFileSets = roots.length + 1 := by
    obtain ⟨c', hb, hn, _⟩ := build_spec roots
    rw [hb] at hc; simp at hc; rw [← hc]; exact hn
  obtain ⟨out, h1, h2, h3⟩ := place_all c (classify_lt roots c hc) files hn1 hn2
    (List.replicate c.nFileSets FileSet.empty) (by simp)
  refine ⟨out, ?_, by omega, ?_⟩
  · unfold FileSetConfig.partition; rw [hf]; exact h1
  · intro k s hs
    have hk : k < c.nFileSets := by rw [← h2]; exact (List.getElem?_eq_some_iff.1 hs).1
    obtain ⟨a1, a2⟩ := h3 k FileSet.empty s (by simp [hk]) hs
    constructor
    · intro id p
      rw [FileSet.pathForFile, a1, hiff]
      simp [FileSet.empty, AMap.get]
    · intro p id
      rw [FileSet.fileForPath, a2, hiff]
      simp [FileSet.empty, AMap.get]

/-- C16: every live file is in exactly one set, and nothing else is in any. -/
theorem file_in_exactly_one_set {C : Type} [DecidableEq C] (roots : List (List VfsPath)) (c : FileSetConfig)
    (hc : build roots = some c) (ops : List (Op VfsPath C)) (v : Vfs VfsPath C) (hv : run ops = some v)
    (sets : List FileSet) (hs : c.partition v = some sets) :
    (∀ p, lastWrite ops p ≠ none →
      ∃ (k : Nat) (s : FileSet) (id : Nat), sets[k]? = some s ∧ s.fileForPath p = some id ∧
        ∀ (k' : Nat) (s' : FileSet) (id' : Nat), sets[k']? = some s' → s'.fileForPath p = some id' → k' = k ∧ id' = id) ∧
    (∀ p, lastWrite ops p = none → ∀ (k : Nat) (s : FileSet), sets[k]? = some s → s.fileForPath p = none) := by
  obtain ⟨sets', h1, h2, h3⟩ := partition_exact roots c hc ops v hv
  rw [h1] at hs
  simp at hs
  subst hs
  constructor
  · intro p hp
    obtain ⟨id, hid⟩ := (visible_iff_live ops v hv p).2 hp
    have hlt := classify_lt roots c hc p
    have hn : c.nFileSets = roots.length + 1 := by
      obtain ⟨c', hb, hn, _⟩ := build_spec roots
      rw [hb] at hc; simp at hc; rw [← hc]; exact hn
    have hl : c.classify p < sets'.length := by omega
    refine ⟨c.classify p, sets'[c.classify p], id, List.getElem?_eq_getElem hl, ?_, ?_⟩
    · rw [(h3 _ _ (List.getElem?_eq_getElem hl)).2]; exact ⟨hid, rfl⟩
    · intro k' s' id' hk' hf
      obtain ⟨hf1, hf2⟩ := ((h3 k' s' hk').2 p id').1 hf
      refine ⟨hf2.symm, ?_⟩
      rw [hid] at hf1
      simpa using hf1.symm
  · intro p hp k s hk
    cases hf : s.fileForPath p with
    | none => rfl
    | some id =>
      exfalso
      exact (visible_iff_live ops v hv p).1 ⟨id, (((h3 k s hk).2 p id).1 hf).1⟩ hp

/-- The hypotheses of C16 are met by a store with a file in each of three sets. -/
example : ∃ c v, build sampleRoots = some c ∧
    run ([.set (.pathBuf [47, 97, 47, 120]) (some 1), .set (.pathBuf [47, 97, 47, 98]) (some 2),
      .set (.pathBuf [47, 120]) (some 3)] : List (Op VfsPath Nat)) = some v := by
  obtain ⟨c, hc⟩ := build_total sampleRoots
  exact ⟨c, _, hc, rfl⟩

/-! ## C18 -/

/-- C18 is violated: with the root `/a` the sibling file `/ab` is put into the set of `/a`
although it does not lie inside that directory. -/
theorem sibling_is_captured : ∃ c, build [[.pathBuf [47, 97]]] = some c ∧
    c.classify (.pathBuf [47, 97, 98]) = 0 ∧ ¬ Inside (.pathBuf [47, 97]) (.pathBuf [47, 97, 98]) := by
  obtain ⟨c, hc⟩ := build_total [[VfsPath.pathBuf [47, 97]]]
  refine ⟨c, hc, ?_, by simp [Inside, VfsPath.bytes]⟩
  rcases longest_root_wins _ c hc (.pathBuf [47, 97, 98]) with ⟨h, _⟩ | ⟨r, ⟨paths, h, _⟩, _⟩
  · exact absurd (by simp [Matches, SameKind, VfsPath.bytes]) (h 0 (.pathBuf [47, 97]) ⟨_, rfl, by simp⟩)
  · have := (List.getElem?_eq_some_iff.1 h).1
    simp at this
    exact this

/-- C18 is violated for every root of every configuration: a file whose path continues that of the root by anything
is never left to the extra set, even when it lies inside no root at all. It goes to the set of a root at least as
long. -/
theorem siblings_are_captured (roots : List (List VfsPath)) (c : FileSetConfig) (hc : build roots = some c)
    (i : Nat) (r p : VfsPath) (rest : List UInt8) (hr : RootOf roots i r) (hk : SameKind r p)
    (hp : p.bytes = r.bytes ++ rest) :
    c.classify p < roots.length ∧ ∃ r', RootOf roots (c.classify p) r' ∧ r.bytes.length ≤ r'.bytes.length := by
  have hm : Matches r p := ⟨hk, by rw [hp]; exact List.prefix_append _ _⟩
  rcases longest_root_wins roots c hc p with ⟨h, _⟩ | ⟨r', h1, _, h3⟩
  · exact absurd hm (h i r hr)
  · refine ⟨?_, r', h1, ?_⟩
    · obtain ⟨paths, h, _⟩ := h1
      exact (List.getElem?_eq_some_iff.1 h).1
    · rcases h3 i r hr hm with h | ⟨h, _⟩
      · omega
      · rw [h]; omega

/-- Such a file lies outside the directory of the root unless a separator follows. -/
theorem sibling_is_outside (r p : VfsPath) (b : UInt8) (rest : List UInt8) (hp : p.bytes = r.bytes ++ b :: rest)
    (hb : b ≠ 47) : ¬ Inside r p := by
  rintro ⟨_, h | ⟨q, h⟩⟩
  · rw [hp] at h; simp at h
  · rw [hp] at h
    have := List.append_cancel_left h
    simp at this
    exact hb this.1

/-- Witness of `siblings_are_captured` and `sibling_is_outside`. -/
example : RootOf [[VfsPath.pathBuf [47, 97]]] 0 (.pathBuf [47, 97]) ∧
    (VfsPath.pathBuf [47, 97, 98]).bytes = (VfsPath.pathBuf [47, 97]).bytes ++ 98 :: [] ∧ (98 : UInt8) ≠ 47 :=
  ⟨⟨_, rfl, by simp⟩, rfl, by decide⟩

/-- C18 (part): a file is assigned to the set of a root it lies inside, provided that no
configured root is a textual but not directory prefix of the file.  Missing: without the
proviso the claim is false (`sibling_is_captured`). -/
theorem root_captures_inside_partial (roots : List (List VfsPath)) (c : FileSetConfig)
    (hc : build roots = some c) (p : VfsPath)
    (hprov : ∀ i r, RootOf roots i r → Matches r p → Inside r p) (hset : c.classify p ≠ roots.length) :
    ∃ r, RootOf roots (c.classify p) r ∧ Inside r p := by
  rcases longest_root_wins roots c hc p with ⟨_, h⟩ | ⟨r, h1, h2, _⟩
  · exact absurd h hset
  · exact ⟨r, h1, hprov _ r h1 h2⟩

/-- C18 (part), without proviso: a file inside the directory of some root never falls into the
extra set, and it goes to the set of that root or of one with a longer path. -/
theorem inside_root_is_captured_partial (roots : List (List VfsPath)) (c : FileSetConfig)
    (hc : build roots = some c) (p : VfsPath) (i : Nat) (r : VfsPath) (hr : RootOf roots i r)
    (hin : Inside r p) :
    ∃ r', RootOf roots (c.classify p) r' ∧ Matches r' p ∧
      (r.bytes.length < r'.bytes.length ∨ (r = r' ∧ c.classify p ≤ i)) := by
  have hm : Matches r p := by
    refine ⟨hin.1, ?_⟩
    rcases hin.2 with h | ⟨rest, h⟩
    · rw [h]; exact List.prefix_refl _
    · rw [h]; exact List.prefix_append _ _
  rcases longest_root_wins roots c hc p with ⟨h, _⟩ | ⟨r', h1, h2, h3⟩
  · exact absurd hm (h i r hr)
  · exact ⟨r', h1, h2, h3 i r hr hm⟩

example : RootOf sampleRoots 1 (.pathBuf [47, 97, 47, 98]) ∧
    Inside (.pathBuf [47, 97, 47, 98]) (.pathBuf [47, 97, 47, 98, 47, 99]) :=
  ⟨⟨_, rfl, by simp⟩, trivial, Or.inr ⟨[99], rfl⟩⟩

end Verif.FileSet
