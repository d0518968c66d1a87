import Verif.Paths.Props
import Verif.Util.Map

set_option autoImplicit false

/-!
C92: paths relative to a file.  Model of `FileSet::resolve_path` (`crates/vfs/src/file_set.rs:29-34`)
on top of `VfsPath::{pop, join}` (`crates/vfs/src/vfs_path.rs:37-48, 65-70`), on unix.
-/

namespace Verif.Paths

open Spec

/-- `VfsPathRepr`, vfs_path.rs:272-275. -/
inductive AnyPath where
  | real (p : Text)
  | virtual (p : Text)
deriving DecidableEq, Repr

/-- `Path::join` on unix: an absolute path replaces the base. -/
def stdJoin (base p : Text) : Text := if p.head? = some '/' then p else push base p

/-- `VfsPath::pop`, vfs_path.rs:65-70; `resolve_path` ignores whether something was removed. -/
def AnyPath.pop : AnyPath → AnyPath
  | .real p => .real (Paths.pop p)
  | .virtual p => .virtual ((virtualPop p).getD p)

/-- `VfsPath::join`, vfs_path.rs:37-48. -/
def AnyPath.join : AnyPath → Text → Option AnyPath
  | .real b, p => some (.real (normalizePath (stdJoin b p)))
  | .virtual b, p => (virtualJoin b p).map .virtual

/-- `FileSet`, file_set.rs:14-17. -/
structure Files where
  files : AMap AnyPath Nat
  paths : AMap Nat AnyPath

/-- `FileSet::insert`, file_set.rs:50-53. -/
def Files.insert (s : Files) (id : Nat) (p : AnyPath) : Files := ⟨s.files.insert p id, s.paths.insert id p⟩

/-- `FileSet::resolve_path`, file_set.rs:29-34.  The outer `none` is the panic of indexing `paths`
with a file that is not in the set. -/
def Files.resolvePath (s : Files) (anchor : Nat) (p : Text) : Option (Option Nat) :=
  match s.paths.get anchor with
  | none => none
  | some base =>
    match base.pop.join p with
    | none => some none
    | some q => some (s.files.get q)

namespace Spec

/-- Where the path `p` leads, seen from the directory `dir`. -/
def Leads (dir : List Text) (p : Text) (there : List Text) : Prop :=
  Walk (if p.head? = some '/' then [] else dir) (splitSlash p) there

/-- The absolute path of the place with these names. -/
def absolute (ns : List Text) : Text := if ns = [] then ['/'] else render ns

end Spec

theorem splitSlash_slash (a p : Text) : splitSlash (a ++ '/' :: p) = splitSlash a ++ splitSlash p := by
  induction a with
  | nil => simp [splitSlash]
  | cons c a ih =>
    simp only [List.cons_append, splitSlash, ih]
    split
    · rfl
    · cases h : splitSlash a with
      | nil => exact absurd h (splitSlash_ne a)
      | cons s ss => rfl

theorem walk_skip_names {here ns segs there : List Text} (hn : ∀ n ∈ ns, Name n) (h : Walk here (ns ++ segs) there) :
    Walk (here ++ ns) segs there := by
  induction ns generalizing here with
  | nil => simpa using h
  | cons n ns ih =>
    have hname := hn n (by simp)
    have hs : ∀ x ∈ ns, Name x := fun x hx => hn x (by simp [hx])
    cases h with
    | empty h => exact absurd rfl hname.1
    | dot h => exact absurd rfl hname.2.2.1
    | up h => exact absurd rfl hname.2.2.2
    | upRoot h => exact absurd rfl hname.2.2.2
    | down _ h => simpa using ih hs h

theorem walk_skip_empty {here segs there : List Text} (h : Walk here ([] :: segs) there) : Walk here segs there := by
  cases h with
  | empty h => exact h
  | down h _ => exact absurd rfl h.1

theorem join_leads (dir : List Text) (hn : ∀ n ∈ dir, Name n) (p : Text) :
    ∃ there, Leads dir p there ∧ (∀ n ∈ there, Name n) ∧
      normalizePath (stdJoin (path dir) p) = absolute there := by
  unfold stdJoin Leads
  by_cases ha : p.head? = some '/'
  · rw [if_pos ha, if_pos ha]
    exact normalize_is_walk p ha
  · rw [if_neg ha, if_neg ha]
    have hsplit : (push (path dir) p).head? = some '/' ∧
        splitSlash (push (path dir) p) = [] :: (dir ++ splitSlash p) := by
      unfold path
      by_cases hd : dir = []
      · subst hd
        simp [push, splitSlash]
      · rw [if_neg hd]
        have hr := render_getLast hn hd
        have hne : render dir ≠ [] := by cases dir with
          | nil => exact absurd rfl hd
          | cons n ns => simp [render]
        unfold push
        rw [if_neg (by exact fun h => h.elim hne hr)]
        rw [splitSlash_slash]
        constructor
        · cases dir with
          | nil => exact absurd rfl hd
          | cons n ns => simp [render]
        · have := splitSlash_render [] dir (by simp) fun x hx => (hn x hx).2.1
          rw [List.nil_append] at this
          rw [this]
          rfl
    obtain ⟨there, h1, h2, h3⟩ := normalize_is_walk _ hsplit.1
    rw [hsplit.2] at h1
    refine ⟨there, ?_, h2, h3⟩
    simpa using walk_skip_names hn (walk_skip_empty h1)

/-- **C92, partial.**  A path relative to a file of the file system, as every file the server stores
(`normalize_is_walk`), is resolved to the file of the set to which the path leads from the directory
of the file: `.` and empty names stay, `..` goes to the parent, an absolute path starts at the root.
There is exactly one place to which it leads.  Missing: files that are not in the set and in-memory
files, see below. -/
theorem resolve_real_partial (s : Files) (anchor : Nat) (dir : List Text) (name p : Text)
    (hn : ∀ n ∈ dir ++ [name], Name n) (ha : s.paths.get anchor = some (.real (absolute (dir ++ [name])))) :
    ∃ there, Leads dir p there ∧ (∀ t, Leads dir p t → t = there) ∧
      s.resolvePath anchor p = some (s.files.get (.real (absolute there))) := by
  obtain ⟨there, h1, _, h3⟩ := join_leads dir (fun n h => hn n (by simp [h])) p
  refine ⟨there, h1, fun t ht => walk_unique ht h1, ?_⟩
  have hp : Paths.pop (absolute (dir ++ [name])) = path dir := pop_path_concat dir name hn
  simp only [Files.resolvePath, ha, AnyPath.pop, hp, AnyPath.join, h3]

/-- **C92, partial.**  A path relative to an in-memory file is resolved as on the file system if it
consists of `..` at the beginning, and proper names; it leads nowhere if it goes up further than to
the root. -/
theorem resolve_virtual_partial (s : Files) (anchor : Nat) (dir names : List Text) (name last : Text) (k : Nat)
    (hn : ∀ n ∈ dir ++ [name], Name n) (hr : ∀ n ∈ names ++ [last], Name n)
    (ha : s.paths.get anchor = some (.virtual (render (dir ++ [name])))) :
    (k ≤ dir.length → ∃ there, Leads dir (ups k ++ (render (names ++ [last])).tail) there ∧
      s.resolvePath anchor (ups k ++ (render (names ++ [last])).tail) = some (s.files.get (.virtual (render there)))) ∧
    (dir.length < k → s.resolvePath anchor (ups k ++ (render (names ++ [last])).tail) = some none) := by
  have hpop : (virtualPop (render (dir ++ [name]))).getD (render (dir ++ [name])) = render dir := by
    rw [render_concat, virtualPop, beforeLastSlash_append _ _ (hn name (by simp)).2.1]
    rfl
  generalize hns : names ++ [last] = ns at hr
  have hne : ns ≠ [] := by rw [← hns]; simp
  obtain ⟨n, ns, rfl⟩ : ∃ n r, ns = n :: r := by
    cases ns with
    | nil => exact absurd rfl hne
    | cons n r => exact ⟨n, r, rfl⟩
  have htail : (render (n :: ns)).tail = n ++ render ns := rfl
  have hname := hr n (by simp)
  rw [htail]
  -- a path that begins with a proper name does not begin with `../` or `./`
  have notPre : ∀ (x : Text) (r : Text), '/' ∉ x → x ≠ n → ¬(n ++ render ns = x ++ '/' :: r) := by
    intro x r hx hxn e
    have h1 : splitSlash (n ++ render ns) = n :: ns := splitSlash_render n ns hname.2.1 fun y hy => (hr y (by simp [hy])).2.1
    rw [e, splitSlash_slash] at h1
    have h2 : splitSlash x = [x] := by
      have := splitSlash_render x [] hx (by simp)
      simpa [render] using this
    rw [h2] at h1
    injection h1 with h1 _
    exact hxn h1
  have nb : ∀ r, n ++ render ns ≠ '.' :: '.' :: '/' :: r := fun r =>
    notPre ['.', '.'] r (by decide) (fun h => hname.2.2.2 h.symm)
  have nd : ∀ r, n ++ render ns ≠ '.' :: '/' :: r := fun r =>
    notPre ['.'] r (by decide) (fun h => hname.2.2.1 h.symm)
  have hj := join_goes_up dir (fun x hx => (hn x (by simp [hx])).2.1) k (n ++ render ns) nb
  have hres : ∀ o, virtualJoin (render dir) (ups k ++ (n ++ render ns)) = o →
      s.resolvePath anchor (ups k ++ (n ++ render ns)) =
        match o with
        | none => some none
        | some q => some (s.files.get (.virtual q)) := by
    intro o ho
    simp only [Files.resolvePath, ha, AnyPath.pop, hpop, AnyPath.join, ho]
    cases o <;> rfl
  constructor
  · intro hk
    have hv := hj.2 0 (n ++ render ns) rfl nd hk
    refine ⟨dir.take (dir.length - k) ++ (n :: ns), ?_, ?_⟩
    · have hrel : (ups k ++ (n ++ render ns)).head? ≠ some '/' := by
        cases k with
        | zero =>
          cases hnn : n with
          | nil => exact absurd hnn hname.1
          | cons c cs =>
            simp only [ups, List.nil_append, List.cons_append, List.head?_cons, ne_eq, Option.some.injEq]
            intro hc
            exact hname.2.1 (by rw [hnn, hc]; simp)
        | succ k => simp [ups]
      unfold Leads
      rw [if_neg hrel]
      have hup : ∀ (k : Nat) (d : List Text), k ≤ d.length →
          Walk d (splitSlash (ups k ++ (n ++ render ns))) (d.take (d.length - k) ++ (n :: ns)) := by
        intro k
        induction k with
        | zero =>
          intro d _
          simp only [ups, List.nil_append, Nat.sub_zero, List.take_length]
          rw [splitSlash_render n ns hname.2.1 fun y hy => (hr y (by simp [hy])).2.1]
          exact walk_names d (n :: ns) hr
        | succ k ih =>
          intro d hd
          rcases List.eq_nil_or_concat d with rfl | ⟨init, l, rfl⟩
          · simp at hd
          · rw [List.concat_eq_append] at *
            simp only [List.length_append, List.length_cons, List.length_nil] at hd
            have e : splitSlash (ups (k + 1) ++ (n ++ render ns)) = ['.', '.'] :: splitSlash (ups k ++ (n ++ render ns)) := by
              show splitSlash (['.', '.'] ++ '/' :: (ups k ++ (n ++ render ns))) = _
              rw [splitSlash_slash]
              rfl
            rw [e]
            refine .up ?_
            have := ih init (by omega)
            rw [List.take_append_of_le_length (by simp)]
            simpa using this
      exact hup k dir hk
    · rw [hres _ hv, render_append]
      rfl
  · intro hk
    exact hres _ (hj.1.2 hk)

/-- The set with these files, inserted one after the other. -/
def Files.of (entries : List (Nat × AnyPath)) : Files := entries.foldl (fun s e => s.insert e.1 e.2) ⟨[], []⟩

theorem insertAll_get (entries : List (Nat × AnyPath)) (s : Files)
    (hi : (entries.map Prod.fst).Nodup) (hp : (entries.map Prod.snd).Nodup) (id : Nat) (p : AnyPath) :
    ((entries.foldl (fun s e => s.insert e.1 e.2) s).files.get p = some id ↔
      (id, p) ∈ entries ∨ p ∉ entries.map Prod.snd ∧ s.files.get p = some id) ∧
    ((entries.foldl (fun s e => s.insert e.1 e.2) s).paths.get id = some p ↔
      (id, p) ∈ entries ∨ id ∉ entries.map Prod.fst ∧ s.paths.get id = some p) := by
  induction entries generalizing s with
  | nil => simp
  | cons e es ih =>
    obtain ⟨i, q⟩ := e
    simp only [List.map_cons, List.nodup_cons] at hi hp
    obtain ⟨h1, h2⟩ := ih (s.insert i q) hi.2 hp.2
    have hmem : ∀ {i q}, (i, q) ∈ es → i ∈ es.map Prod.fst ∧ q ∈ es.map Prod.snd := fun h =>
      ⟨List.mem_map.mpr ⟨_, h, rfl⟩, List.mem_map.mpr ⟨_, h, rfl⟩⟩
    simp only [List.foldl_cons]
    constructor
    · rw [h1]
      simp only [Files.insert, AMap.get_insert, List.mem_cons, List.map_cons, Prod.mk.injEq, not_or]
      by_cases hq : p = q
      · subst hq
        simp only [if_true, Option.some.injEq, and_true, not_true, false_and, or_false]
        constructor
        · rintro (h | ⟨_, rfl⟩)
          · exact .inr h
          · exact .inl rfl
        · rintro (rfl | h)
          · exact .inr ⟨hp.1, rfl⟩
          · exact .inl h
      · simp [hq, Ne.symm hq, show ¬q = p from fun h => hq h.symm]
    · rw [h2]
      simp only [Files.insert, AMap.get_insert, List.mem_cons, List.map_cons, Prod.mk.injEq, not_or]
      by_cases hq : id = i
      · subst hq
        simp only [if_true, Option.some.injEq, true_and, not_true, false_and, or_false]
        constructor
        · rintro (h | ⟨_, rfl⟩)
          · exact .inr h
          · exact .inl rfl
        · rintro (rfl | h)
          · exact .inr ⟨hi.1, rfl⟩
          · exact .inl h
      · simp [hq, Ne.symm hq, show ¬i = id from fun h => hq h.symm]

/-- **C92, partial.**  In a set with given files of the file system, no two with the same number or path, a path
relative to one of them is resolved to another exactly if it leads to it. -/
theorem resolve_inserted_partial (entries : List (Nat × AnyPath)) (hi : (entries.map Prod.fst).Nodup)
    (hp : (entries.map Prod.snd).Nodup) (anchor : Nat) (dir : List Text) (name p : Text)
    (hn : ∀ n ∈ dir ++ [name], Name n) (ha : (anchor, .real (absolute (dir ++ [name]))) ∈ entries) (id : Nat) :
    (Files.of entries).resolvePath anchor p = some (some id) ↔
      ∃ there, Leads dir p there ∧ (id, .real (absolute there)) ∈ entries := by
  have h := insertAll_get entries ⟨[], []⟩ hi hp
  have hget : (Files.of entries).paths.get anchor = some (.real (absolute (dir ++ [name]))) :=
    (h anchor _).2.mpr (.inl ha)
  obtain ⟨there, h1, h2, h3⟩ := resolve_real_partial (Files.of entries) anchor dir name p hn hget
  have hfile := (h id (.real (absolute there))).1
  have hnil : (AMap.get ([] : AMap AnyPath Nat) (.real (absolute there)) = some id) ↔ False := by simp [AMap.get]
  rw [h3, Option.some.injEq, show (Files.of entries).files = (entries.foldl (fun s e => s.insert e.1 e.2) ⟨[], []⟩ : Files).files from rfl,
    hfile, hnil]
  simp only [and_false, or_false]
  exact ⟨fun h => ⟨there, h1, h⟩, fun ⟨t, ht, hm⟩ => by rw [h2 t ht] at hm; exact hm⟩

/-- **C92 does not hold**: for a file that is not in the set nothing is returned, although the
comment of the function promises `None`; the program panics. -/
theorem resolve_unknown_panics (s : Files) (anchor : Nat) (p : Text) (h : s.paths.get anchor = none) :
    s.resolvePath anchor p = none := by
  simp [Files.resolvePath, h]

/-- Two files in memory. -/
def twoFiles (f : Text → AnyPath) : Files :=
  ((⟨[], []⟩ : Files).insert 0 (f "/src/main.move".toList)).insert 1 (f "/src/b.move".toList)

/-- **C92 does not hold** for in-memory files: a path with `..` behind a name, or behind `./`, leads
to a file of the set and is not found; on the file system it is. -/
theorem resolve_virtual_misses :
    Leads ["src".toList] "a/../b.move".toList ["src".toList, "b.move".toList] ∧
    (twoFiles .virtual).resolvePath 0 "a/../b.move".toList = some none ∧
    (twoFiles .real).resolvePath 0 "a/../b.move".toList = some (some 1) ∧
    (twoFiles .virtual).resolvePath 0 "./../src/b.move".toList = some none ∧
    (twoFiles .real).resolvePath 0 "./../src/b.move".toList = some (some 1) := by
  refine ⟨?_, by decide, by decide, by decide, by decide⟩
  show Walk ["src".toList] ["a".toList, "..".toList, "b.move".toList] (["src".toList] ++ ["b.move".toList])
  refine .down (by unfold Name; decide) ?_
  refine Walk.up (here := ["src".toList]) (last := "a".toList) ?_
  exact .down (by unfold Name; decide) (.stop _)

/-- Witness of the partial theorems. -/
example : (∀ n ∈ ["src".toList] ++ ["main.move".toList], Name n) ∧
    (twoFiles .real).paths.get 0 = some (.real (absolute (["src".toList] ++ ["main.move".toList]))) ∧
    (twoFiles .virtual).paths.get 0 = some (.virtual (render (["src".toList] ++ ["main.move".toList]))) ∧
    (twoFiles .real).resolvePath 0 ".././src//b.move".toList = some (some 1) ∧
    (twoFiles .virtual).resolvePath 0 (ups 1 ++ (render ["src".toList, "b.move".toList]).tail) = some (some 1) := by
  refine ⟨?_, by decide, by decide, by decide, by decide⟩
  intro n hn
  simp only [List.cons_append, List.nil_append, List.mem_cons, List.not_mem_nil, or_false] at hn
  rcases hn with rfl | rfl <;> unfold Name <;> decide

/-- Witness of `resolve_inserted_partial`: `../lib/b.move` leads from `/src/main.move` to the second file. -/
example : let entries : List (Nat × AnyPath) := [(3, .real "/src/main.move".toList), (7, .real "/lib/b.move".toList)]
    (entries.map Prod.fst).Nodup ∧ (entries.map Prod.snd).Nodup ∧
    (3, AnyPath.real (absolute (["src".toList] ++ ["main.move".toList]))) ∈ entries ∧
    (Files.of entries).resolvePath 3 "../lib/b.move".toList = some (some 7) := by decide

end Verif.Paths
