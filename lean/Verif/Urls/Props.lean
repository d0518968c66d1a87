import Verif.Urls.Spec
import Verif.Paths.Resolve

set_option autoImplicit false

/-! Property C100: the URIs by which the server and the editor speak about documents. -/

namespace Verif.Urls

open Verif.Paths Verif.Paths.Spec Spec

/-! ## Lemmas -/

theorem hex_round : ∀ i : Fin 16, hexValue (hexDigit i.val) = some i.val := by decide

theorem hexDigit_get : ∀ i : Fin 16, digits[i.val]? = some (hexDigit i.val) := by decide

theorem hexDigit_no_slash : ∀ i : Fin 16, hexDigit i.val ≠ '/' := by decide

theorem hexValue_lt (c : Char) (x : Nat) (h : hexValue c = some x) : x < 16 := by
  unfold hexValue at h
  have e : ∀ a b : Char, a ≤ b ↔ a.toNat ≤ b.toNat := fun a b => by
    rw [Char.le_def, UInt32.le_iff_toNat_le]; rfl
  simp only [e] at h
  have h0 : '0'.toNat = 48 := rfl
  have h1 : '9'.toNat = 57 := rfl
  have h2 : 'a'.toNat = 97 := rfl
  have h3 : 'f'.toNat = 102 := rfl
  have h4 : 'A'.toNat = 65 := rfl
  have h5 : 'F'.toNat = 70 := rfl
  split at h
  · cases h; omega
  · split at h
    · cases h; omega
    · split at h
      · cases h; omega
      · cases h

theorem digit_values : ∀ i : Fin 16, ∀ c : Char, Digit c i.val → hexValue c = some i.val := by
  intro i c h
  have e : ∀ j : Fin 16, (digits[j.val]?.map hexValue = some (some j.val)) ∧
      ("0123456789abcdef".toList[j.val]?.map hexValue = some (some j.val)) := by decide
  rcases h with h | h
  · have := (e i).1; rw [h] at this; exact Option.some.inj this
  · have := (e i).2; rw [h] at this; exact Option.some.inj this

theorem digit_lt {c : Char} {x : Nat} (h : Digit c x) : x < 16 := by
  rcases h with h | h
  · exact (List.getElem?_eq_some_iff.1 h).1
  · exact (List.getElem?_eq_some_iff.1 h).1

theorem digit_of_nat : ∀ n : Fin 128, ∀ x : Fin 16, hexValue (Char.ofNat n.val) = some x.val →
    (digits[x.val]? = some (Char.ofNat n.val) ∨ "0123456789abcdef".toList[x.val]? = some (Char.ofNat n.val)) := by
  decide +kernel

theorem hexValue_iff (c : Char) (x : Nat) : hexValue c = some x ↔ Digit c x := by
  constructor
  · intro h
    have hc : c.toNat < 128 := by
      have e : ∀ a b : Char, a ≤ b ↔ a.toNat ≤ b.toNat := fun a b => by
        rw [Char.le_def, UInt32.le_iff_toNat_le]; rfl
      have h1 : '9'.toNat = 57 := rfl
      have h3 : 'f'.toNat = 102 := rfl
      have h5 : 'F'.toNat = 70 := rfl
      unfold hexValue at h
      simp only [e] at h
      split at h
      · omega
      · split at h
        · omega
        · split at h
          · omega
          · cases h
    have := digit_of_nat ⟨c.toNat, hc⟩ ⟨x, hexValue_lt c x h⟩
    simp only [Char.ofNat_toNat] at this
    exact this h
  · intro h
    exact digit_values ⟨x, digit_lt h⟩ c h

theorem hexValue_none (c : Char) : hexValue c = none ↔ ∀ x, ¬ Digit c x := by
  constructor
  · intro h x hx
    rw [(hexValue_iff c x).2 hx] at h
    cases h
  · intro h
    cases hv : hexValue c with
    | none => rfl
    | some x => exact absurd ((hexValue_iff c x).1 hv) (h x)

theorem plain_iff (c : Char) : mustEncode c = false ↔ Plain c := by
  unfold mustEncode Plain
  by_cases hs : c = ' '
  · subst hs; decide
  have hb : c.toNat ≠ 32 := fun h => hs (by
    apply Char.ext; apply UInt32.toNat_inj.1; exact h)
  simp only [Bool.or_eq_false_iff, decide_eq_false_iff_not]
  simp
  constructor
  · rintro ⟨⟨h1, h2⟩, h3⟩
    refine ⟨by omega, h2, ?_⟩
    simp [h3]
  · rintro ⟨h1, h2, h3⟩
    refine ⟨⟨by omega, h2⟩, hs, ?_⟩
    simp [h3]

theorem plain_ne {c : Char} (h : Plain c) : c ≠ '%' ∧ c ≠ '/' := by
  refine ⟨?_, ?_⟩ <;> rintro rfl <;> exact h.2.2 (by decide)

theorem decode_cons {c : Char} (h : c ≠ '%') (s : Text) : percentDecode (c :: s) = c :: percentDecode s := by
  match s with
  | [] => rfl
  | [d] => cases hd : percentDecode [d] <;> simp [percentDecode] at hd ⊢ <;> simp [hd]
  | d :: e :: r => simp [percentDecode, h]

theorem decode_escape {h l : Char} {x y : Nat} (hx : hexValue h = some x) (hy : hexValue l = some y) (s : Text) :
    percentDecode ('%' :: h :: l :: s) = Char.ofNat (16 * x + y) :: percentDecode s := by
  simp [percentDecode, hx, hy]

theorem ofNat_toNat (c : Char) : Char.ofNat c.toNat = c := Char.ofNat_toNat c

theorem decode_encode (n : Text) (h : Bytes n) : percentDecode (percentEncode n) = n := by
  induction n with
  | nil => rfl
  | cons c cs ih =>
    have hc := h c (by simp)
    have ih := ih (fun d hd => h d (by simp [hd]))
    unfold percentEncode
    by_cases hm : mustEncode c = true
    · rw [if_pos hm, decode_escape (hex_round ⟨c.toNat / 16, by omega⟩) (hex_round ⟨c.toNat % 16, by omega⟩), ih]
      have : 16 * (c.toNat / 16) + c.toNat % 16 = c.toNat := by omega
      show Char.ofNat (16 * (c.toNat / 16) + c.toNat % 16) :: cs = _
      rw [this, ofNat_toNat]
    · rw [if_neg hm, decode_cons, ih]
      exact (plain_ne ((plain_iff c).1 (by simpa using hm))).1

theorem encode_spelled (n : Text) (h : Bytes n) (s : Text) : Spelled n s ↔ s = percentEncode n := by
  constructor
  · intro hs
    induction hs with
    | nil => rfl
    | plain hp _ ih =>
      rw [percentEncode, if_neg (by simp [(plain_iff _).2 hp]), ih (fun d hd => h d (by simp [hd]))]
    | @escaped c hi lo n s hp h1 h2 _ ih =>
      have hc := h c (by simp)
      have hm : mustEncode c = true := by
        by_cases hm : mustEncode c = true
        · exact hm
        · exact absurd ((plain_iff c).1 (by simpa using hm)) hp
      rw [hexDigit_get ⟨c.toNat / 16, by omega⟩] at h1
      rw [hexDigit_get ⟨c.toNat % 16, by omega⟩] at h2
      cases h1; cases h2
      rw [percentEncode, if_pos hm, ih (fun d hd => h d (by simp [hd]))]
  · rintro rfl
    induction n with
    | nil => exact .nil
    | cons c cs ih =>
      have hc := h c (by simp)
      have ih := ih (fun d hd => h d (by simp [hd]))
      unfold percentEncode
      by_cases hm : mustEncode c = true
      · rw [if_pos hm]
        exact .escaped (fun hp => by rw [(plain_iff c).2 hp] at hm; cases hm)
          (hexDigit_get ⟨c.toNat / 16, by omega⟩) (hexDigit_get ⟨c.toNat % 16, by omega⟩) ih
      · rw [if_neg hm]
        exact .plain ((plain_iff c).1 (by simpa using hm)) ih

theorem encode_no_slash (n : Text) (h : Bytes n) : '/' ∉ percentEncode n := by
  induction n with
  | nil => simp [percentEncode]
  | cons c cs ih =>
    have hc := h c (by simp)
    have ih := ih (fun d hd => h d (by simp [hd]))
    unfold percentEncode
    by_cases hm : mustEncode c = true
    · rw [if_pos hm]
      have h1 := hexDigit_no_slash ⟨c.toNat / 16, by omega⟩
      have h2 := hexDigit_no_slash ⟨c.toNat % 16, by omega⟩
      simp only [List.mem_cons, not_or]
      exact ⟨by decide, Ne.symm h1, Ne.symm h2, ih⟩
    · rw [if_neg hm]
      have := (plain_ne ((plain_iff c).1 (by simpa using hm))).2
      simp only [List.mem_cons, not_or]
      exact ⟨Ne.symm this, ih⟩

theorem spelledPath_iff (names : List Text) (h : ∀ n, n ∈ names → Bytes n) (t : Text) :
    SpelledPath names t ↔ t = render (names.map percentEncode) := by
  induction names generalizing t with
  | nil =>
    constructor
    · intro h; cases h; rfl
    · rintro rfl; exact .nil
  | cons n ns ih =>
    have ih := ih (fun m hm => h m (by simp [hm]))
    constructor
    · intro hs
      cases hs with
      | cons h1 h2 =>
        rw [(encode_spelled n (h n (by simp)) _).1 h1, (ih _).1 h2]
        rfl
    · rintro rfl
      exact .cons ((encode_spelled n (h n (by simp)) _).2 rfl) ((ih _).2 rfl)

theorem flatMap_decode (names : List Text) (h : ∀ n, n ∈ names → Bytes n) :
    (names.map percentEncode).flatMap (fun s => '/' :: percentDecode s) = render names := by
  induction names with
  | nil => rfl
  | cons n ns ih =>
    simp only [List.map_cons, List.flatMap_cons, render]
    rw [decode_encode n (h n (by simp)), ih (fun m hm => h m (by simp [hm]))]

theorem splitSlash_pathOf (n : Text) (ns : List Text) (h : ∀ m, m ∈ n :: ns → '/' ∉ m) :
    splitSlash (render (n :: ns)) = [] :: n :: ns := by
  simpa using splitSlash_render [] (n :: ns) (by simp) h

theorem filterMap_names (names : List Text) (h : ∀ n, n ∈ names → Name n) :
    names.filterMap segComponent = names.map .normal := by
  induction names with
  | nil => rfl
  | cons n ns ih =>
    have hn := h n (by simp)
    rw [List.filterMap_cons, ih (fun m hm => h m (by simp [hm]))]
    simp [segComponent, hn.1, hn.2.2.1, hn.2.2.2]

theorem components_pathOf (names : List Text) (h : ∀ n, n ∈ names → Name n) :
    components (pathOf names) = .rootDir :: names.map .normal := by
  cases names with
  | nil => decide
  | cons n ns =>
    rw [pathOf, if_neg (by simp)]
    unfold components
    rw [if_pos (by rfl), splitSlash_pathOf n ns (fun m hm => (h m hm).2.1), List.filterMap_cons]
    have : segComponent [] = none := rfl
    rw [this]
    simp only [filterMap_names _ h]
    rfl

theorem render_ne (n : Text) (ns : List Text) : render (n :: ns) ≠ [] := by simp [render]

/-- The URL that the server makes for a path of proper names. -/
theorem urlFromAbsPath_names (names : List Text) (h : ∀ n, n ∈ names → Name n) :
    urlFromAbsPath (pathOf names) =
      .ok ⟨"file".toList, none, if names = [] then ['/'] else render (names.map percentEncode), none, none⟩ := by
  have hh : (pathOf names).head? = some '/' := by
    cases names with
    | nil => rfl
    | cons n ns => rfl
  unfold urlFromAbsPath fromFilePath
  rw [if_pos hh, components_pathOf names h]
  have e : ∀ ns : List Text, (ns.map Component.normal).flatMap (fun c => '/' :: percentEncode (componentText c)) =
      render (ns.map percentEncode) := by
    intro ns
    induction ns with
    | nil => rfl
    | cons n ns ih => simp only [List.map_cons, List.flatMap_cons, render, ih]; rfl
  simp only [List.tail_cons, e]
  cases names with
  | nil => rfl
  | cons n ns => rw [if_neg (by simpa using render_ne _ _), if_neg (by simp)]

theorem normalize_walk_to (t : Text) (h : t.head? = some '/') (names : List Text) (hw : Walk [] (splitSlash t) names) :
    normalizePath t = pathOf names := by
  obtain ⟨there, h1, _, h3⟩ := normalize_is_walk t h
  rw [h3, walk_unique h1 hw]
  rfl

theorem walk_append_empty {here segs there : List Text} (h : Walk here segs there) : Walk here (segs ++ [[]]) there := by
  induction h with
  | stop here => exact .empty (.stop here)
  | empty _ ih => exact .empty ih
  | dot _ ih => exact .dot ih
  | up _ ih => exact .up ih
  | upRoot _ ih => exact .upRoot ih
  | down hn _ ih => exact .down hn ih

theorem normalize_slash (t : Text) (h : t.head? = some '/') : normalizePath (t ++ ['/']) = normalizePath t := by
  obtain ⟨there, h1, _, h3⟩ := normalize_is_walk t h
  rw [h3]
  have : splitSlash (t ++ ['/']) = splitSlash t ++ [[]] := by
    have := splitSlash_slash t []
    simpa [splitSlash] using this
  apply normalize_walk_to
  · cases t with
    | nil => simp at h
    | cons c cs => simpa using h
  · rw [this]; exact walk_append_empty h1

/-- The path that the server keeps for a URL. -/
theorem vfsPath_eq (slash : Bool) (u : Url) (rest : Text) (hp : u.path = '/' :: rest)
    (hh : u.host = none ∨ u.host = some "localhost".toList) :
    vfsPath slash u = .ok (normalizePath ((splitSlash rest).flatMap (fun s => '/' :: percentDecode s))) := by
  have hs : ∀ t : List Text, t ≠ [] → (t.flatMap (fun s => '/' :: percentDecode s)).head? = some '/' := by
    intro t ht
    cases t with
    | nil => exact absurd rfl ht
    | cons a as => rfl
  have h1 := hs _ (splitSlash_ne rest)
  unfold vfsPath absPath toFilePath
  rw [hp]
  simp only [if_pos hh]
  by_cases hd : (slash && endsInDrive ((splitSlash rest).flatMap (fun s => '/' :: percentDecode s))) = true
  · rw [if_pos hd]
    have h2 : (((splitSlash rest).flatMap (fun s => '/' :: percentDecode s)) ++ ['/']).head? = some '/' := by
      rw [List.head?_append, h1]; rfl
    simp only [if_pos h2, normalize_slash _ h1]
  · rw [if_neg hd]
    simp only [if_pos h1]

theorem vfsPath_names (slash : Bool) (names : List Text) (h : ∀ n, n ∈ names → Name n ∧ Bytes n) (u : Url)
    (hp : u.path = if names = [] then ['/'] else render (names.map percentEncode)) (hh : u.host = none) :
    vfsPath slash u = .ok (pathOf names) := by
  cases names with
  | nil =>
    rw [if_pos rfl] at hp
    rw [vfsPath_eq slash u [] hp (.inl hh)]
    rfl
  | cons n ns =>
    rw [if_neg (by simp)] at hp
    have hp' : u.path = '/' :: (percentEncode n ++ render (ns.map percentEncode)) := by rw [hp]; rfl
    rw [vfsPath_eq slash u _ hp' (.inl hh)]
    rw [splitSlash_render _ _ (encode_no_slash n (h n (by simp)).2) (by
      intro x hx
      obtain ⟨m, hm, rfl⟩ := List.mem_map.1 hx
      exact encode_no_slash m (h m (by simp [hm])).2)]
    have := flatMap_decode (n :: ns) (fun m hm => (h m hm).2)
    rw [List.map_cons] at this
    rw [this, pathOf, if_neg (by simp), normalize_canonical _ (by simp) (fun m hm => (h m hm).1)]

theorem walk_bytes {here segs there : List Text} (h : Walk here segs there) (hh : ∀ n, n ∈ here → Bytes n)
    (hs : ∀ n, n ∈ segs → Bytes n) : ∀ n, n ∈ there → Bytes n := by
  induction h with
  | stop here => exact hh
  | empty _ ih => exact ih hh (fun n hn => hs n (by simp [hn]))
  | dot _ ih => exact ih hh (fun n hn => hs n (by simp [hn]))
  | up _ ih => exact ih (fun n hn => hh n (by simp [hn])) (fun n hn => hs n (by simp [hn]))
  | upRoot _ ih => exact ih hh (fun n hn => hs n (by simp [hn]))
  | @down here m segs there hn _ ih =>
    refine ih (fun n hn => ?_) (fun n hn => hs n (by simp [hn]))
    rcases List.mem_append.1 hn with h1 | h1
    · exact hh n h1
    · simp at h1; subst h1; exact hs _ (by simp)

theorem splitSlash_mem (t : Text) : ∀ s, s ∈ splitSlash t → ∀ c, c ∈ s → c ∈ t := by
  induction t with
  | nil => intro s hs c hc; simp [splitSlash] at hs; subst hs; simp at hc
  | cons d ds ih =>
    intro s hs c hc
    simp only [splitSlash] at hs
    split at hs
    · rcases List.mem_cons.1 hs with rfl | hs
      · simp at hc
      · simp [ih s hs c hc]
    · split at hs
      · rename_i h; exact absurd h (splitSlash_ne ds)
      · rename_i a as h
        rcases List.mem_cons.1 hs with rfl | hs
        · rcases List.mem_cons.1 hc with rfl | hc
          · simp
          · simp [ih a (by simp [h]) c hc]
        · simp [ih s (by simp [h, hs]) c hc]

/-- Every normalised path is the path of proper names. -/
theorem normalize_names (p : Text) (h : p.head? = some '/') (hb : Bytes p) :
    ∃ names : List Text, (∀ n, n ∈ names → Name n ∧ Bytes n) ∧ normalizePath p = pathOf names := by
  obtain ⟨there, h1, h2, h3⟩ := normalize_is_walk p h
  exact ⟨there, fun n hn => ⟨h2 n hn,
    walk_bytes h1 (by simp) (fun s hs c hc => hb c (splitSlash_mem p s hs c hc)) n hn⟩, h3⟩

theorem ofNat_lt (n : Nat) (h : n < 256) : (Char.ofNat n).toNat < 256 := by
  have : ∀ i : Fin 256, (Char.ofNat i.val).toNat < 256 := by decide +kernel
  exact this ⟨n, h⟩

theorem decode_stands (s : Text) : Stands s (percentDecode s) := by
  induction s using percentDecode.induct with
  | case1 => exact .nil
  | case2 c => exact .self (by rintro _ h l r ⟨⟩) .nil
  | case3 c d =>
    refine .self ?_ (.self ?_ .nil)
    · rintro _ h l r ⟨⟩
    · rintro _ h l r ⟨⟩
  | case4 h l rest x y hy hx ih =>
    rw [decode_escape hx hy]
    exact .byte ((hexValue_iff _ _).1 hx) ((hexValue_iff _ _).1 hy) ih
  | case5 h l rest hn ih =>
    have e : percentDecode ('%' :: h :: l :: rest) = '%' :: percentDecode (h :: l :: rest) := by
      rw [percentDecode, if_pos rfl]
      split
      · rename_i x y hx hy; exact absurd hy (fun hy => hn x y hx hy)
      · rfl
    rw [e]
    refine .self (fun _ h' l' r hr => ?_) ih
    cases hr
    cases hx : hexValue h with
    | none => exact .inl ((hexValue_none _).1 hx)
    | some x =>
      cases hy : hexValue l with
      | none => exact .inr ((hexValue_none _).1 hy)
      | some y => exact (hn x y hx hy).elim
  | case6 c h l rest hc ih =>
    rw [decode_cons hc]
    exact .self (fun he => absurd he hc) ih

theorem stands_unique {s t t' : Text} (h : Stands s t) (h' : Stands s t') : t = t' := by
  induction h generalizing t' with
  | nil => cases h'; rfl
  | byte hx hy _ ih =>
    cases h' with
    | byte hx' hy' h' =>
      rw [← hexValue_iff] at hx hy hx' hy'
      rw [hx] at hx'; rw [hy] at hy'
      cases hx'; cases hy'
      rw [ih h']
    | self hs _ =>
      rcases hs rfl _ _ _ rfl with h | h
      · exact (h _ hx).elim
      · exact (h _ hy).elim
  | self hs _ ih =>
    cases h' with
    | byte hx hy _ =>
      rcases hs rfl _ _ _ rfl with h | h
      · exact (h _ hx).elim
      · exact (h _ hy).elim
    | self _ h' => rw [ih h']

theorem stands_bytes {s t : Text} (h : Stands s t) (hb : Bytes s) : Bytes t := by
  induction h with
  | nil => exact hb
  | byte hx hy _ ih =>
    intro d hd
    rcases List.mem_cons.1 hd with rfl | hd
    · exact ofNat_lt _ (by have := digit_lt hx; have := digit_lt hy; omega)
    · exact ih (fun e he => hb e (by simp [he])) d hd
  | self _ _ ih =>
    intro d hd
    rcases List.mem_cons.1 hd with rfl | hd
    · exact hb _ (by simp)
    · exact ih (fun e he => hb e (by simp [he])) d hd

theorem flatMap_render (ts : List Text) (f : Text → Text) : ts.flatMap (fun s => '/' :: f s) = render (ts.map f) := by
  induction ts with
  | nil => rfl
  | cons t ts ih => simp only [List.flatMap_cons, List.map_cons, render, ih]

theorem vfsPath_ok (slash : Bool) (u : Url) (p : Text) (h : vfsPath slash u = .ok p) :
    ∃ rest, u.path = '/' :: rest ∧ (u.host = none ∨ u.host = some "localhost".toList) := by
  unfold vfsPath absPath toFilePath at h
  split at h
  · rename_i q hq
    split at hq
    · cases hq
    · rename_i q' hq'
      split at hq'
      · rename_i rest hp
        by_cases hh : u.host = none ∨ u.host = some "localhost".toList
        · exact ⟨rest, hp, hh⟩
        · rw [if_neg hh] at hq'; cases hq'
      · cases hq'
  · cases h
  · cases h

/-! ## C100 -/

/-- C100: reading the URI of a document never ends the server on unix. -/
theorem reading_never_panics (slash : Bool) (u : Url) : vfsPath slash u ≠ .panic := by
  by_cases h : ∃ rest, u.path = '/' :: rest ∧ (u.host = none ∨ u.host = some "localhost".toList)
  · obtain ⟨rest, hp, hh⟩ := h
    rw [vfsPath_eq slash u rest hp hh]
    intro h; cases h
  · have : toFilePath slash u = none := by
      unfold toFilePath
      split
      · rename_i rest hp
        rw [if_neg (fun hh => h ⟨rest, hp, hh⟩)]
      · rfl
    unfold vfsPath absPath
    rw [this]
    intro h; cases h

/-- C100: the URI of a document is refused exactly when it has no path or names another machine. -/
theorem refused_iff (slash : Bool) (u : Url) : vfsPath slash u = .error ↔
    u.path.head? ≠ some '/' ∨ (u.host ≠ none ∧ u.host ≠ some "localhost".toList) := by
  constructor
  · intro h
    by_cases hp : u.path.head? = some '/'
    · refine .inr ?_
      cases hu : u.path with
      | nil => rw [hu] at hp; cases hp
      | cons c rest =>
        rw [hu] at hp
        simp at hp; subst hp
        refine ⟨fun hh => ?_, fun hh => ?_⟩
        · rw [vfsPath_eq slash u rest hu (.inl hh)] at h; cases h
        · rw [vfsPath_eq slash u rest hu (.inr hh)] at h; cases h
    · exact .inl hp
  · intro h
    cases hv : vfsPath slash u with
    | error => rfl
    | panic => exact absurd hv (reading_never_panics slash u)
    | ok p =>
      obtain ⟨rest, hp, hh⟩ := vfsPath_ok slash u p hv
      rcases h with h | ⟨h1, h2⟩
      · rw [hp] at h; exact absurd rfl h
      · rcases hh with hh | hh
        · exact absurd hh h1
        · exact absurd hh h2

/-- C100: a URI names the file that is reached from the root by following what its segments stand for. -/
theorem uri_names_file (slash : Bool) (u : Url) (p : Text) (h : vfsPath slash u = .ok p) :
    ∃ (rest : Text) (texts names : List Text), u.path = '/' :: rest ∧ texts.length = (splitSlash rest).length ∧
      (∀ (i : Nat) (s t : Text), (splitSlash rest)[i]? = some s → texts[i]? = some t → Stands s t) ∧
      Walk [] (splitSlash (render texts)) names ∧ p = pathOf names := by
  obtain ⟨rest, hp, hh⟩ := vfsPath_ok slash u p h
  rw [vfsPath_eq slash u rest hp hh, flatMap_render] at h
  cases h
  have hd : (render ((splitSlash rest).map percentDecode)).head? = some '/' := by
    cases hs : splitSlash rest with
    | nil => exact absurd hs (splitSlash_ne rest)
    | cons a as => rfl
  obtain ⟨names, h1, _, h3⟩ := normalize_is_walk _ hd
  refine ⟨rest, (splitSlash rest).map percentDecode, names, hp, by simp, ?_, h1, h3⟩
  intro i s t hs ht
  rw [List.getElem?_map, hs] at ht
  simp at ht; subst ht
  exact decode_stands s

/-- C100: what a segment stands for is determined. -/
theorem stands_exactly (s t : Text) : Stands s t ↔ t = percentDecode s :=
  ⟨fun h => stands_unique h (decode_stands s), fun h => h ▸ decode_stands s⟩

/-- C100: the server finds a URI for every path it keeps, and the URI leads back to the path.  So what it
publishes for a file is about that file, and the version of an open document is found under the published URI. -/
theorem published_uri_leads_back (slash : Bool) (p : Text) (h : p.head? = some '/') (hb : Bytes p) :
    ∃ u, urlFromAbsPath (normalizePath p) = .ok u ∧ vfsPath slash u = .ok (normalizePath p) ∧ Canonical u := by
  obtain ⟨names, hn, he⟩ := normalize_names p h hb
  rw [he]
  refine ⟨_, urlFromAbsPath_names names (fun n hm => (hn n hm).1), vfsPath_names slash names hn _ rfl rfl, names, hn,
    rfl, rfl, rfl, rfl, ?_⟩
  by_cases h0 : names = []
  · rw [if_pos h0, if_pos h0]
  · rw [if_neg h0, if_neg h0]
    exact (spelledPath_iff names (fun n hm => (hn n hm).2) _).2 rfl

/-- C100: different files are published under different URIs. -/
theorem files_have_different_uris (p q : Text) (hp : p.head? = some '/') (hq : q.head? = some '/') (bp : Bytes p)
    (bq : Bytes q) (h : urlFromAbsPath (normalizePath p) = urlFromAbsPath (normalizePath q)) :
    normalizePath p = normalizePath q := by
  obtain ⟨u, h1, h2, _⟩ := published_uri_leads_back false p hp bp
  obtain ⟨v, h3, h4, _⟩ := published_uri_leads_back false q hq bq
  rw [h1, h3] at h
  cases h
  rw [h2] at h4
  exact Outcome.ok.inj h4

/-- C100: the server speaks about an opened document under the URI it was opened with exactly if that URI is the
one spelling of a file. -/
theorem published_under_opened_uri_iff_partial (slash : Bool) (u : Url) (hb : Bytes u.path) :
    published slash u = .ok u ↔ Canonical u := by
  constructor
  · intro h
    unfold published at h
    split at h
    · rename_i p hp
      obtain ⟨rest, hr, hh⟩ := vfsPath_ok slash u p hp
      rw [vfsPath_eq slash u rest hr hh] at hp
      cases hp
      obtain ⟨u', h1, _, h3⟩ := published_uri_leads_back slash ((splitSlash rest).flatMap (fun s => '/' :: percentDecode s)) (by
        cases hs : splitSlash rest with
        | nil => exact absurd hs (splitSlash_ne rest)
        | cons a as => rfl) (by
        intro c hc
        obtain ⟨s, hs, hc⟩ := List.mem_flatMap.1 hc
        rcases List.mem_cons.1 hc with rfl | hc
        · decide
        · refine stands_bytes (decode_stands s) (fun d hd => hb d ?_) c hc
          rw [hr]
          exact List.mem_cons_of_mem _ (splitSlash_mem rest s hs d hd))
      rw [h1] at h
      cases h
      exact h3
    · cases h
    · cases h
  · rintro ⟨names, hn, h1, h2, h3, h4, h5⟩
    have hp : u.path = if names = [] then ['/'] else render (names.map percentEncode) := by
      by_cases h0 : names = []
      · rw [if_pos h0] at h5 ⊢; exact h5
      · rw [if_neg h0] at h5 ⊢
        exact (spelledPath_iff names (fun n hm => (hn n hm).2) _).1 h5
    unfold published
    rw [vfsPath_names slash names hn u hp h2]
    simp only [urlFromAbsPath_names names (fun n hm => (hn n hm).1), ← hp]
    cases u
    simp only at h1 h2 h3 h4
    subst h1 h2 h3 h4
    rfl

/-- C100: documents that were opened under the proper URIs of files are kept apart. -/
theorem documents_kept_apart_partial (slash : Bool) (u v : Url) (hu : Canonical u) (hv : Canonical v)
    (bu : Bytes u.path) (bv : Bytes v.path) (h : vfsPath slash u = vfsPath slash v) : u = v := by
  have h1 := (published_under_opened_uri_iff_partial slash u bu).2 hu
  have h2 := (published_under_opened_uri_iff_partial slash v bv).2 hv
  unfold published at h1 h2
  rw [h] at h1
  rw [h1] at h2
  cases h2
  rfl

/-- A URI of the scheme `file` with the given path. -/
def fileUri (path : String) : Url := ⟨"file".toList, none, path.toList, none, none⟩

/-- C100 fails: a document with parentheses in its name, opened as editors write it, is published under another URI. -/
theorem published_under_other_uri (slash : Bool) :
    published slash (fileUri "/src/a%28b%29.move") = .ok (fileUri "/src/a(b).move") := by
  cases slash <;> decide +kernel

/-- C100 fails: the old side of a comparison (`git:/src/a.move?…`) is taken for the file itself. -/
theorem other_scheme_is_taken_for_file (slash : Bool) :
    vfsPath slash ⟨"git".toList, none, "/src/a.move".toList, some "ref=HEAD".toList, none⟩ =
      vfsPath slash (fileUri "/src/a.move") := by
  cases slash <;> decide +kernel

/-- Witness: a file with a blank, a `%`, a letter outside ASCII and a directory with a colon. -/
example : published true (fileUri "/c:/my%20sources/100%25%C3%A4.move") = .ok (fileUri "/c:/my%20sources/100%25%C3%A4.move") := by
  decide +kernel

/-- Witness: the hypotheses of the theorems on paths are met. -/
example : (normalizePath "/src/../a b/x.move".toList).head? = some '/' ∧
    urlFromAbsPath (normalizePath "/src/../a b/x.move".toList) = .ok (fileUri "/a%20b/x.move") := by
  decide +kernel

/-- Witness: a canonical URI. -/
example : Canonical (fileUri "/a%20b/x.move") :=
  (published_under_opened_uri_iff_partial true _ (by
    intro c hc
    have h : ∀ c, c ∈ "/a%20b/x.move".toList → c.toNat < 256 := by decide
    exact h c hc)).1 (by decide +kernel)

/-! ### Drive letters -/

theorem splitColon_append (a b : Text) (h : ':' ∉ a) : splitColon (a ++ ':' :: b) = some (a, b) := by
  induction a with
  | nil => simp [splitColon]
  | cons c cs ih =>
    simp only [List.mem_cons, not_or] at h
    simp [splitColon, Ne.symm h.1, ih h.2]

theorem lowerDrive_driveUrl (letter : Char) (h0 : letter ≠ ':') (names : List Text) :
    lowerDrive (driveUrl letter names) = driveUrl (lowerAscii letter) names := by
  unfold driveUrl
  have e1 : ∀ c : Char, ∀ r : Text, "file:///".toList ++ c :: ':' :: r =
      "file".toList ++ ':' :: (['/', '/', '/', c] ++ ':' :: r) := fun _ _ => rfl
  rw [e1, e1]
  unfold lowerDrive
  rw [splitColon_append _ _ (by decide)]
  simp only
  rw [splitColon_append _ _ (by simp [Ne.symm h0])]
  rfl

theorem lowerAscii_of {letter lower : Char} (h : LowerCase letter lower) : lowerAscii letter = lower ∧ letter ≠ ':' := by
  obtain ⟨i, h, hl⟩ := h
  have hi : i < 26 := (List.getElem?_eq_some_iff.1 hl).1
  have e : ∀ j : Fin 26, ("ABCDEFGHIJKLMNOPQRSTUVWXYZ".toList[j.val]?.map lowerAscii = "abcdefghijklmnopqrstuvwxyz".toList[j.val]? ∧
      "abcdefghijklmnopqrstuvwxyz".toList[j.val]?.map lowerAscii = "abcdefghijklmnopqrstuvwxyz".toList[j.val]?) ∧
      "ABCDEFGHIJKLMNOPQRSTUVWXYZ".toList[j.val]? ≠ some ':' ∧ "abcdefghijklmnopqrstuvwxyz".toList[j.val]? ≠ some ':' := by
    decide +kernel
  have e := e ⟨i, hi⟩
  simp only [] at e
  rcases h with h | h
  · rw [h, hl] at e
    exact ⟨Option.some.inj e.1.1, fun hc => e.2.1 (by rw [hc])⟩
  · rw [hl] at h
    rw [hl] at e
    cases h
    exact ⟨Option.some.inj e.1.2, fun hc => e.2.2 (by rw [hc])⟩

/-- C100: on Windows the URI of a file has its drive letter in lower case and is otherwise unchanged. -/
theorem drive_in_lower_case {letter lower : Char} (h : LowerCase letter lower) (names : List Text) :
    lowerDrive (driveUrl letter names) = driveUrl lower names := by
  rw [lowerDrive_driveUrl letter (lowerAscii_of h).2, (lowerAscii_of h).1]

/-- C100: on Windows, too, the URI of a file spells every name in its one way. -/
theorem drive_uri_is_spelled {letter lower : Char} (h : LowerCase letter lower) (names : List Text)
    (hb : ∀ n, n ∈ names → Bytes n) (t : Text) (ht : if names = [] then t = ['/'] else SpelledPath names t) :
    lowerDrive (driveUrl letter names) = "file:///".toList ++ lower :: ':' :: t := by
  rw [drive_in_lower_case h]
  unfold driveUrl
  split at ht
  · rename_i h0; rw [if_pos h0, ht]
  · rename_i h0
    rw [if_neg h0, (spelledPath_iff names hb t).1 ht, flatMap_render]

/-- C100: the URI with a drive letter leads back to the file. -/
theorem drive_uri_leads_back (letter : Char) (ha : letter.isAlpha) (names : List Text) (hb : ∀ n, n ∈ names → Bytes n)
    (t : Text) (ht : if names = [] then t = ['/'] else SpelledPath names t) (u : Url) (hu : u.path = '/' :: letter :: ':' :: t) :
    absPathWindows u = .ok (letter :: ':' :: (if names = [] then ['\\'] else names.flatMap (fun n => '\\' :: n))) := by
  have hne : letter ≠ '/' := by rintro rfl; exact absurd ha (by decide)
  have key : ∀ segs : List Text, splitSlash (letter :: ':' :: t) = [letter, ':'] :: segs →
      toFilePathWindows u = some ([letter, ':'] ++ segs.flatMap (fun s => '\\' :: percentDecode s)) := by
    intro segs hs
    unfold toFilePathWindows
    rw [hu]
    simp only
    rw [hs]
    simp [ha]
  have decoded : ∀ ns : List Text, (∀ n, n ∈ ns → Bytes n) →
      (ns.map percentEncode).flatMap (fun s => '\\' :: percentDecode s) = ns.flatMap (fun n => '\\' :: n) := by
    intro ns
    induction ns with
    | nil => intro _; rfl
    | cons n ns ih =>
      intro h
      simp only [List.map_cons, List.flatMap_cons]
      rw [decode_encode n (h n (by simp)), ih (fun m hm => h m (by simp [hm]))]
  have slashless : '/' ∉ [letter, ':'] := by simp [Ne.symm hne]
  split at ht
  · rename_i h0
    subst ht
    have := key [[]] (by simpa [render] using splitSlash_render [letter, ':'] [[]] slashless (by simp))
    unfold absPathWindows
    rw [this, if_pos h0]
    rfl
  · rename_i h0
    have e := (spelledPath_iff names hb t).1 ht
    have := key (names.map percentEncode) (by
      rw [e]
      refine splitSlash_render [letter, ':'] _ slashless ?_
      intro x hx
      obtain ⟨n, hn, rfl⟩ := List.mem_map.1 hx
      exact encode_no_slash n (hb n hn))
    unfold absPathWindows
    rw [this, decoded names hb, if_neg h0]
    cases names with
    | nil => exact absurd rfl h0
    | cons n ns => rfl

/-- Witness: a URI with a drive letter and a name that has to be spelled. -/
example : absPathWindows (fileUri "/c:/my%20sources/a.move") = .ok "c:\\my sources\\a.move".toList := by decide +kernel

/-- C100: the case in which the drive letter came does not show in the URI. -/
theorem drive_case_is_forgotten {letter other lower : Char} (h : LowerCase letter lower) (h' : LowerCase other lower)
    (names : List Text) : lowerDrive (driveUrl letter names) = lowerDrive (driveUrl other names) := by
  rw [drive_in_lower_case h, drive_in_lower_case h']

/-- Witness: two letters with the same lower case. -/
example : LowerCase 'C' 'c' ∧ LowerCase 'c' 'c' := ⟨⟨2, by decide⟩, ⟨2, by decide⟩⟩

example : lowerDrive (driveUrl 'C' ["my sources".toList, "a:B.move".toList]) = "file:///c:/my%20sources/a:B.move".toList := by
  decide +kernel

theorem splitSlash_single (t first : Text) (h : splitSlash t = [first]) : t = first := by
  induction t generalizing first with
  | nil => simp [splitSlash] at h; exact h.symm
  | cons c cs ih =>
    simp only [splitSlash] at h
    split at h
    · simp at h
      exact absurd h.2 (splitSlash_ne cs)
    · split at h
      · rename_i h'; exact absurd h' (splitSlash_ne cs)
      · rename_i s ss h'
        simp at h
        obtain ⟨rfl, rfl⟩ := h
        rw [ih s h']

theorem splitSlash_free (t : Text) (h : '/' ∉ t) : splitSlash t = [t] := by
  simpa [render] using splitSlash_render t [] h (by simp)

theorem alpha_ne {c : Char} (h : c.isAlpha) : c ≠ '/' := by rintro rfl; exact absurd h (by decide)

/-- C100 fails on Windows: a URI that consists of a drive alone ends the server.  No other URI without a host does. -/
theorem drive_alone_panics (u : Url) : absPathWindows u = .panic ↔
    ∃ c, c.isAlpha ∧ (u.path = ['/', c, ':'] ∨ u.path = ['/', c, '%', '3', 'a'] ∨ u.path = ['/', c, '%', '3', 'A']) := by
  constructor
  · intro h
    unfold absPathWindows at h
    split at h
    · cases h
    rename_i p hp
    split at h
    · cases h
    rename_i ha
    unfold toFilePathWindows at hp
    split at hp
    · rename_i rest hr
      split at hp
      · cases hp
      · rename_i first segments hs
        simp only at hp
        split at hp
        · cases hp
        · rename_i d hd
          cases hp
          cases segments with
          | cons a as =>
            exfalso
            have : ∃ c : Char, d = [c, ':'] := by
              split at hd
              · split at hd
                · cases hd; exact ⟨_, rfl⟩
                · cases hd
              · split at hd
                · cases hd; exact ⟨_, rfl⟩
                · cases hd
              · cases hd
            obtain ⟨c, rfl⟩ := this
            exact ha rfl
          | nil =>
            have he := splitSlash_single rest first hs
            subst he
            split at hd
            · rename_i c e
              split at hd
              · rename_i hc
                obtain ⟨h1, rfl⟩ := hc
                exact ⟨c, h1, .inl hr⟩
              · cases hd
            · rename_i c e f g
              split at hd
              · rename_i hc
                obtain ⟨h1, rfl, rfl, rfl | rfl⟩ := hc
                · exact ⟨c, h1, .inr (.inl hr)⟩
                · exact ⟨c, h1, .inr (.inr hr)⟩
              · cases hd
            · cases hd
    · cases hp
  · rintro ⟨c, hc, h⟩
    have hne := alpha_ne hc
    rcases h with h | h | h <;> unfold absPathWindows toFilePathWindows <;> rw [h] <;>
      (simp only; rw [splitSlash_free _ (by simp [Ne.symm hne])]; simp [hc, absoluteWindows])

example : absPathWindows (fileUri "/c:") = .panic ∧ absPathWindows (fileUri "/c:/") = .ok "c:\\".toList := by
  decide +kernel

end Verif.Urls
