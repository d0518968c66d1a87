import Verif.Paths.WindowsModel

set_option autoImplicit false

/-!
C97: on Windows, two paths of the file system have the same key exactly if they are the same path, and the key of a
directory is a prefix of the keys of what is below it.
-/

namespace Verif.Paths.Windows

/-! ### Specification -/

/-- A name: code units without `\`. -/
def Name (t : Wide) : Prop := backslash ∉ t ∧ ∀ w, w ∈ t → w < 65536

/-- An upper case letter. -/
def Drive (d : Nat) : Prop := 65 ≤ d ∧ d ≤ 90

/-- The prefixes that `std::path` finds: what looks like a disk or like the beginning of a verbatim UNC path is one. -/
def Prefix.Ok : Prefix → Prop
  | .verbatim c => Name c ∧ c ≠ [85, 78, 67] ∧ ∀ d, Drive d → c ≠ [d, 58]
  | .verbatimUNC server share => Name server ∧ Name share
  | .verbatimDisk d => Drive d
  | .deviceNS device => Name device
  | .unc server share => Name server ∧ Name share ∧ server ≠ [63] ∧ server ≠ [46]
  | .disk d => Drive d

/-- An absolute, normalised path. -/
structure WinPath where
  pre : Prefix
  names : List Wide

def WinPath.Ok (p : WinPath) : Prop := p.pre.Ok ∧ ∀ n, n ∈ p.names → Name n ∧ n ≠ []

/-- Its components. -/
def WinPath.components (p : WinPath) : List Component := .pre p.pre :: .root :: p.names.map .normal

/-- `p` is `dir` or lies below it. -/
def Under (dir p : WinPath) : Prop := p.pre = dir.pre ∧ ∃ rest, p.names = dir.names ++ rest

/-! ### Texts with separators -/

/-- Texts with a separator between them. -/
def join : List Wide → Wide
  | [] => []
  | [a] => a
  | a :: b :: rest => a ++ backslash :: join (b :: rest)

theorem join_cons (a : Wide) (r : List Wide) (h : r ≠ []) : join (a :: r) = a ++ backslash :: join r := by
  cases r with
  | nil => exact absurd rfl h
  | cons b r => rfl

theorem join_append (as bs : List Wide) (ha : as ≠ []) (hb : bs ≠ []) :
    join (as ++ bs) = join as ++ backslash :: join bs := by
  induction as with
  | nil => exact absurd rfl ha
  | cons a as ih =>
    cases as with
    | nil => rw [List.cons_append, List.nil_append, join_cons _ _ hb]; rfl
    | cons a' as =>
      rw [List.cons_append, join_cons _ _ (by simp), ih (by simp), join_cons a (a' :: as) (by simp), List.append_assoc,
        List.cons_append]

/-- The first text and the rest. -/
theorem first_eq (a b x y : Wide) (ha : backslash ∉ a) (hb : backslash ∉ b)
    (h : a ++ backslash :: x = b ++ backslash :: y) : a = b ∧ x = y := by
  induction a generalizing b with
  | nil =>
    cases b with
    | nil => exact ⟨rfl, by simpa using h⟩
    | cons c b =>
      rw [List.nil_append, List.cons_append] at h
      injection h with h1 h2
      exact absurd (h1 ▸ List.mem_cons_self ..) hb
  | cons c a ih =>
    cases b with
    | nil =>
      rw [List.nil_append, List.cons_append] at h
      injection h with h1 h2
      exact absurd (h1 ▸ List.mem_cons_self ..) ha
    | cons d b =>
      rw [List.cons_append, List.cons_append] at h
      injection h with h1 h2
      obtain ⟨h3, h4⟩ := ih b (fun hm => ha (List.mem_cons_of_mem _ hm)) (fun hm => hb (List.mem_cons_of_mem _ hm)) h2
      exact ⟨by rw [h1, h3], h4⟩

/-- If joined texts are a prefix of joined texts, they agree up to the last one, which is a prefix. -/
theorem join_prefix (as bs : List Wide) (ha : as ≠ []) (hb : bs ≠ []) (fa : ∀ a, a ∈ as → backslash ∉ a)
    (fb : ∀ b, b ∈ bs → backslash ∉ b) (h : join as <+: join bs) :
    ∃ init l s more, as = init ++ [l] ∧ bs = init ++ (l ++ s) :: more := by
  induction as generalizing bs with
  | nil => exact absurd rfl ha
  | cons a as ih =>
    cases bs with
    | nil => exact absurd rfl hb
    | cons b bs =>
      cases as with
      | nil =>
        obtain ⟨z, hz⟩ := h
        have hz : a ++ z = join (b :: bs) := hz
        cases bs with
        | nil => exact ⟨[], a, z, [], rfl, by rw [hz]; rfl⟩
        | cons b' bs =>
          rw [join_cons _ _ (by simp)] at hz
          rcases List.append_eq_append_iff.1 hz with ⟨s, h1, h2⟩ | ⟨s, h1, h2⟩
          · exact ⟨[], a, s, b' :: bs, rfl, by rw [h1]; rfl⟩
          · cases s with
            | nil => exact ⟨[], a, [], b' :: bs, rfl, by rw [h1]; simp⟩
            | cons c s =>
              rw [List.cons_append] at h2
              injection h2 with h2 h3
              exact absurd (by rw [h1, ← h2]; simp) (fa a (List.mem_cons_self ..))
      | cons a' as =>
        rw [join_cons a _ (by simp)] at h
        obtain ⟨z, hz⟩ := h
        cases bs with
        | nil =>
          have hz : _ = b := hz
          exact absurd (by rw [← hz]; simp) (fb b (List.mem_cons_self ..))
        | cons b' bs =>
          rw [join_cons b _ (by simp), List.append_assoc, List.cons_append] at hz
          obtain ⟨h1, h2⟩ := first_eq _ _ _ _ (fa a (List.mem_cons_self ..)) (fb b (List.mem_cons_self ..)) hz
          obtain ⟨init, l, s, more, e1, e2⟩ := ih (b' :: bs) (by simp) (by simp)
            (fun x hx => fa x (List.mem_cons_of_mem _ hx)) (fun x hx => fb x (List.mem_cons_of_mem _ hx)) ⟨z, h2⟩
          exact ⟨a :: init, l, s, more, by rw [e1]; rfl, by rw [e2, h1]; rfl⟩

theorem join_injective (as bs : List Wide) (ha : as ≠ []) (hb : bs ≠ []) (fa : ∀ a, a ∈ as → backslash ∉ a)
    (fb : ∀ b, b ∈ bs → backslash ∉ b) (h : join as = join bs) : as = bs := by
  obtain ⟨i, l, s, m, e1, e2⟩ := join_prefix as bs ha hb fa fb (h ▸ List.prefix_rfl)
  obtain ⟨i', l', s', m', e1', e2'⟩ := join_prefix bs as hb ha fb fa (h ▸ List.prefix_rfl)
  have hl : as.length = bs.length := by
    have h1 : as.length ≤ bs.length := by rw [e1, e2]; simp
    have h2 : bs.length ≤ as.length := by rw [e1', e2']; simp
    omega
  have hm : m = [] := by
    rw [e1, e2] at hl
    simp only [List.length_append, List.length_cons, List.length_nil] at hl
    exact List.eq_nil_of_length_eq_zero (by omega)
  subst hm
  rw [e1, e2] at h
  have hs : s = [] := by
    have hll : (join (i ++ [l])).length = (join (i ++ [l ++ s])).length := by rw [h]
    cases i with
    | nil =>
      simp only [List.nil_append, join, List.length_append] at hll
      exact List.eq_nil_of_length_eq_zero (by omega)
    | cons c i =>
      rw [join_append _ _ (by simp) (by simp), join_append _ _ (by simp) (by simp)] at hll
      simp only [join, List.length_append, List.length_cons] at hll
      exact List.eq_nil_of_length_eq_zero (by omega)
  rw [e1, e2, hs, List.append_nil]

/-! ### Bytes -/

theorem encodeText_append (a b : Wide) : encodeText (a ++ b) = encodeText a ++ encodeText b := by
  unfold encodeText; rw [List.flatMap_append]

theorem encodeText_cons (w : Nat) (a : Wide) : encodeText (w :: a) = w % 256 :: w / 256 :: encodeText a := rfl

theorem encodeText_prefix (a b : Wide) (h : encodeText a <+: encodeText b) : a <+: b := by
  induction a generalizing b with
  | nil => exact ⟨b, rfl⟩
  | cons w a ih =>
    obtain ⟨z, hz⟩ := h
    cases b with
    | nil => cases hz
    | cons v b =>
      rw [encodeText_cons, encodeText_cons, List.cons_append, List.cons_append] at hz
      injection hz with h1 hz
      injection hz with h2 hz
      have : w = v := by omega
      subst this
      obtain ⟨y, hy⟩ := ih b ⟨z, hz⟩
      exact ⟨y, by rw [← hy]; rfl⟩

theorem encodeText_mono (a b : Wide) (h : a <+: b) : encodeText a <+: encodeText b := by
  obtain ⟨z, rfl⟩ := h
  exact ⟨encodeText z, by rw [encodeText_append]⟩

/-- The texts of a prefix between separators. -/
def Prefix.parts : Prefix → List Wide
  | .verbatim c => [[], [], [63], c]
  | .verbatimUNC server share => [[], [], [63], [85, 78, 67], server, share]
  | .verbatimDisk d => [[], [], [63], [d, 58]]
  | .deviceNS device => [[], [], [46], device]
  | .unc server share => [[], [], server, share]
  | .disk d => [[d, 58]]

theorem prefix_encode (p : Prefix) : p.encode = encodeText (join p.parts) := by
  cases p <;>
    simp [Prefix.encode, Prefix.parts, join, encodeText_append, encodeText_cons, VERBATIM, SEP, UNC, DEVICE, COLON,
      backslash, encodeUnit] <;> rfl

theorem prefix_encode_ne (p : Prefix) : p.encode ≠ [] := by
  cases p <;> simp [Prefix.encode, encodeText_cons, VERBATIM, SEP, DEVICE, encodeUnit]

/-- The texts of the names; a root without names is followed by an empty text. -/
def WinPath.tail (p : WinPath) : List Wide := if p.names = [] then [[]] else p.names

theorem loop_names (buf : List Nat) (n : Wide) (ns : List Wide) (hn : ∀ m, m ∈ n :: ns → m ≠ []) :
    encodeLoop false buf ((n :: ns).map .normal) = buf ++ encodeText (join (n :: ns)) ∧
    encodeLoop true buf ((n :: ns).map .normal) = buf ++ encodeText (backslash :: join (n :: ns)) := by
  induction ns generalizing buf n with
  | nil =>
    constructor
    · simp [encodeLoop, Component.encode, join]
    · simp [encodeLoop, Component.encode, join, SEP, backslash, encodeText]
  | cons m ns ih =>
    have hne : (encodeText n).isEmpty = false := by
      cases n with
      | nil => exact absurd rfl (hn _ (List.mem_cons_self ..))
      | cons w n => rfl
    have hm : ∀ x, x ∈ m :: ns → x ≠ [] := fun x hx => hn x (List.mem_cons_of_mem _ hx)
    constructor
    · rw [List.map_cons, encodeLoop]
      simp only [Component.encode, hne, Bool.not_false, Bool.false_eq_true, if_false]
      rw [(ih _ m hm).2, join_cons n _ (by simp), encodeText_append, List.append_assoc]
    · rw [List.map_cons, encodeLoop]
      simp only [Component.encode, hne, Bool.not_false, if_true]
      rw [(ih _ m hm).2, join_cons n _ (by simp)]
      simp [SEP, backslash, encodeText]

theorem encode_eq (p : WinPath) (hp : p.Ok) :
    encode p.components = 0 :: encodeText (join (p.pre.parts ++ p.tail)) := by
  have hpre : p.pre.encode.isEmpty = false := by
    cases h : p.pre.encode with
    | nil => exact absurd h (prefix_encode_ne _)
    | cons a b => rfl
  have hparts : p.pre.parts ≠ [] := by cases p.pre <;> simp [Prefix.parts]
  unfold encode WinPath.components
  rw [encodeLoop, encodeLoop]
  simp only [Component.encode, hpre, Bool.false_eq_true, if_false, Bool.not_false, if_true, List.append_nil,
    List.isEmpty_nil, Bool.not_true]
  unfold WinPath.tail
  by_cases hn : p.names = []
  · rw [if_pos hn, hn, join_append _ _ hparts (by simp), prefix_encode, encodeText_append]
    rfl
  · rw [if_neg hn]
    obtain ⟨n, ns, e⟩ := List.exists_cons_of_ne_nil hn
    rw [e, (loop_names _ n ns (fun m hm => (hp.2 m (e ▸ hm)).2)).1, join_append _ _ hparts (by simp), prefix_encode,
      encodeText_append]
    simp [SEP, backslash, encodeText]

theorem parts_free (p : WinPath) (hp : p.Ok) : ∀ a, a ∈ p.pre.parts ++ p.tail → backslash ∉ a := by
  intro a ha
  rcases List.mem_append.1 ha with ha | ha
  · have := hp.1
    revert ha this
    cases p.pre <;> simp only [Prefix.parts, Prefix.Ok, List.mem_cons, List.not_mem_nil, or_false, Drive, Name] <;>
      intro ha hok
    · rcases ha with rfl | rfl | rfl | rfl
      · simp
      · simp
      · simp [backslash]
      · exact hok.1.1
    · rcases ha with rfl | rfl | rfl | rfl | rfl | rfl
      · simp
      · simp
      · simp [backslash]
      · simp [backslash]
      · exact hok.1.1
      · exact hok.2.1
    · rcases ha with rfl | rfl | rfl | rfl <;> simp [backslash] <;> omega
    · rcases ha with rfl | rfl | rfl | rfl
      · simp
      · simp
      · simp [backslash]
      · exact hok.1
    · rcases ha with rfl | rfl | rfl | rfl
      · simp
      · simp
      · exact hok.1.1
      · exact hok.2.1.1
    · subst ha; simp [backslash]; omega
  · unfold WinPath.tail at ha
    split at ha
    · rw [List.mem_singleton.1 ha]; simp
    · exact (hp.2 a ha).1.1

/-- The texts of a prefix determine it. -/
theorem parts_eq (p q : Prefix) (hp : p.Ok) (hq : q.Ok) (x y : List Wide) (h : p.parts ++ x = q.parts ++ y) : p = q := by
  cases p <;> cases q <;> simp [Prefix.parts, Prefix.Ok] at h hp hq ⊢ <;>
    first
    | exact h.1 | exact ⟨h.1, h.2.1⟩ | exact hp.2.1 h.1 | exact hp.2.2 _ hq h.1 | exact hq.2.2.1 h.1.symm
    | exact hq.2.1 h.1.symm | exact hq.2.2 _ hp h.1.symm | exact hq.2.2.2 h.1.symm | exact hp.2.2.1 h.1
    | exact hp.2.2.2 h.1

theorem parts_ne (p : Prefix) : p.parts ≠ [] := by cases p <;> simp [Prefix.parts]

theorem tail_ne (p : WinPath) : p.tail ≠ [] := by
  unfold WinPath.tail
  split
  · simp
  · assumption

theorem tail_eq (p q : WinPath) (hp : p.Ok) (hq : q.Ok) (h : p.tail = q.tail) : p.names = q.names := by
  unfold WinPath.tail at h
  split at h <;> split at h
  · rename_i h1 h2; rw [h1, h2]
  · exact absurd rfl (hq.2 [] (h ▸ List.mem_cons_self ..)).2
  · exact absurd rfl (hp.2 [] (h ▸ List.mem_cons_self ..)).2
  · exact h

/-! ### C97 -/

/-- **C97**: two paths have the same key exactly if they are the same path. -/
theorem same_key (p q : WinPath) (hp : p.Ok) (hq : q.Ok) : encode p.components = encode q.components ↔ p = q := by
  constructor
  · intro h
    rw [encode_eq p hp, encode_eq q hq] at h
    injection h with _ h
    have h' : join (p.pre.parts ++ p.tail) = join (q.pre.parts ++ q.tail) := by
      obtain ⟨x, hx⟩ := encodeText_prefix (join (p.pre.parts ++ p.tail)) (join (q.pre.parts ++ q.tail))
        (by rw [h]; exact List.prefix_rfl)
      have hl := congrArg List.length h
      have hlen : ∀ t, (encodeText t).length = 2 * t.length := by
        intro t
        induction t with
        | nil => rfl
        | cons w t ih => rw [encodeText_cons, List.length_cons, List.length_cons, ih, List.length_cons]; omega
      rw [hlen, hlen, ← hx, List.length_append] at hl
      have : x = [] := List.eq_nil_of_length_eq_zero (by omega)
      rw [← hx, this, List.append_nil]
    have e := join_injective _ _ (by simp [parts_ne]) (by simp [parts_ne]) (parts_free p hp) (parts_free q hq) h'
    have hpre := parts_eq _ _ hp.1 hq.1 _ _ e
    rw [hpre] at e
    have := tail_eq p q hp hq (List.append_cancel_left e)
    cases p; cases q
    simp only at hpre this
    rw [hpre, this]
  · rintro rfl; rfl

/-- **C97**: the key of a path of the file system is not the key of a virtual path. -/
theorem virtual_key (p : WinPath) (hp : p.Ok) (bytes : List Nat) : encode p.components ≠ encodeVirtual bytes := by
  rw [encode_eq p hp]
  intro h
  cases h

/-- **C97**: the key of a directory is a prefix of the key of everything below it. -/
theorem under_prefix (dir p : WinPath) (hd : dir.Ok) (hp : p.Ok) (h : Under dir p) :
    encode dir.components <+: encode p.components := by
  obtain ⟨hpre, rest, hn⟩ := h
  rw [encode_eq dir hd, encode_eq p hp, hpre, join_append _ _ (parts_ne _) (tail_ne _),
    join_append _ _ (parts_ne _) (tail_ne _), List.prefix_cons_inj]
  apply encodeText_mono
  rw [List.prefix_append_right_inj, List.prefix_cons_inj]
  unfold WinPath.tail
  by_cases hdn : dir.names = []
  · rw [if_pos hdn]
    exact ⟨_, rfl⟩
  · rw [if_neg hdn, hn, if_neg (by simp [hdn])]
    cases rest with
    | nil => rw [List.append_nil]; exact List.prefix_rfl
    | cons r rest => exact ⟨_, (join_append _ _ hdn (by simp)).symm⟩

/-- **C97** (what else is captured): if the key of a directory is a prefix of the key of a path, the path lies below it
or below a sibling whose name begins with the name of the directory. -/
theorem prefix_under (dir p : WinPath) (hd : dir.Ok) (hp : p.Ok) (h : encode dir.components <+: encode p.components) :
    p.pre = dir.pre ∧ (dir.names = [] ∨
      ∃ above last more rest, dir.names = above ++ [last] ∧ p.names = above ++ (last ++ more) :: rest) := by
  rw [encode_eq dir hd, encode_eq p hp, List.prefix_cons_inj] at h
  obtain ⟨init, l, s, more, e1, e2⟩ := join_prefix _ _ (by simp [parts_ne]) (by simp [parts_ne]) (parts_free dir hd)
    (parts_free p hp) (encodeText_prefix _ _ h)
  obtain ⟨t, l', ht⟩ : ∃ t l', dir.tail = t ++ [l'] :=
    ⟨dir.tail.dropLast, dir.tail.getLast (tail_ne dir), (List.dropLast_concat_getLast _).symm⟩
  rw [ht, ← List.append_assoc] at e1
  obtain ⟨e3, e4⟩ := List.append_inj' e1 rfl
  cases e4
  rw [← e3, List.append_assoc] at e2
  have hpre := parts_eq _ _ hp.1 hd.1 _ _ e2
  refine ⟨hpre, ?_⟩
  by_cases hdn : dir.names = []
  · exact .inl hdn
  · right
    rw [hpre] at e2
    have e5 := List.append_cancel_left e2
    have ht' : dir.tail = dir.names := by unfold WinPath.tail; rw [if_neg hdn]
    refine ⟨t, l, s, more, by rw [← ht', ht], ?_⟩
    unfold WinPath.tail at e5
    split at e5
    · exfalso
      cases t with
      | nil =>
        rw [List.nil_append] at e5
        injection e5 with e6 e7
        have hl : l = [] := (List.append_eq_nil_iff.1 e6.symm).1
        exact (hd.2 l (by rw [← ht', ht]; simp)).2 hl
      | cons a t =>
        rw [List.cons_append] at e5
        injection e5 with e6 e7
        cases t <;> cases e7
    · exact e5

/-! ### Witnesses, and a root that captures its sibling -/

/-- A text of ASCII characters. -/
def wide (s : String) : Wide := s.toList.map Char.toNat

theorem name_ok (t : Wide) (h : (t.all fun w => decide (w < 65536) && (w != 92)) = true) : Name t := by
  rw [List.all_eq_true] at h
  constructor
  · intro hm
    have := h _ hm
    simp [backslash] at this
  · intro w hw
    have := h _ hw
    simp only [Bool.and_eq_true, decide_eq_true_eq] at this
    exact this.1

/-- `C:\x\y.rs` -/
def sample : WinPath := ⟨.disk 67, [wide "x", wide "y.rs"]⟩

example : sample.Ok := by
  refine ⟨⟨by decide, by decide⟩, ?_⟩
  intro n hn
  simp only [sample, List.mem_cons, List.not_mem_nil, or_false] at hn
  rcases hn with rfl | rfl <;> exact ⟨name_ok _ (by decide), by decide⟩

/-- The test of the repository, vfs_path.rs:255-260. -/
example : encode (WinPath.components ⟨.disk 67, [wide "x", wide "y"]⟩) = [0, 67, 0, 58, 0, 92, 0, 120, 0, 92, 0, 121, 0] := by
  decide

/-- `\\server\share\x` and `\\?\C:\x` -/
example : WinPath.Ok ⟨.unc (wide "server") (wide "share"), [wide "x"]⟩ ∧ WinPath.Ok ⟨.verbatimDisk 67, [wide "x"]⟩ ∧
    encode (WinPath.components ⟨.unc (wide "server") (wide "share"), [wide "x"]⟩) =
      0 :: encodeText (wide "\\\\server\\share\\x") ∧
    encode (WinPath.components ⟨.verbatimDisk 67, [wide "x"]⟩) = 0 :: encodeText (wide "\\\\?\\C:\\x") := by
  refine ⟨⟨⟨name_ok _ (by decide), name_ok _ (by decide), by decide, by decide⟩, ?_⟩, ⟨⟨by decide, by decide⟩, ?_⟩, by decide,
    by decide⟩ <;> intro n hn <;> rw [List.mem_singleton.1 hn] <;> exact ⟨name_ok _ (by decide), by decide⟩

theorem join_longer (init : List Wide) (l s : Wide) (more : List Wide) :
    join (init ++ [l]) <+: join (init ++ (l ++ s) :: more) := by
  have base : join [l] <+: join ((l ++ s) :: more) := by
    cases more with
    | nil => exact ⟨s, rfl⟩
    | cons m more => exact ⟨s ++ backslash :: join (m :: more), by simp [join]⟩
  cases init with
  | nil => exact base
  | cons a init =>
    rw [join_append _ _ (by simp) (by simp), join_append _ _ (by simp) (by simp), List.prefix_append_right_inj,
      List.prefix_cons_inj]
    exact base

/-- **C97** (exactly what is captured): the key of a directory is a prefix of the key of a path just when the path lies
in the same volume, below the directory or below a sibling whose name begins with the name of the directory. -/
theorem prefix_iff (dir p : WinPath) (hd : dir.Ok) (hp : p.Ok) :
    encode dir.components <+: encode p.components ↔ p.pre = dir.pre ∧ (dir.names = [] ∨
      ∃ above last more rest, dir.names = above ++ [last] ∧ p.names = above ++ (last ++ more) :: rest) := by
  refine ⟨prefix_under dir p hd hp, ?_⟩
  rintro ⟨hpre, h | ⟨above, last, more, rest, h1, h2⟩⟩
  · exact under_prefix dir p hd hp ⟨hpre, p.names, by rw [h]; rfl⟩
  · rw [encode_eq dir hd, encode_eq p hp, hpre, join_append _ _ (parts_ne _) (tail_ne _),
      join_append _ _ (parts_ne _) (tail_ne _), List.prefix_cons_inj]
    apply encodeText_mono
    rw [List.prefix_append_right_inj, List.prefix_cons_inj]
    unfold WinPath.tail
    rw [if_neg (by rw [h1]; simp), if_neg (by rw [h2]; simp), h1, h2]
    exact join_longer above last more rest

/-- C18 is violated on Windows too: `C:\a` captures `C:\ab`. -/
theorem windows_sibling_captured :
    encode (WinPath.components ⟨.disk 67, [wide "a"]⟩) <+: encode (WinPath.components ⟨.disk 67, [wide "ab"]⟩) ∧
    ¬ Under ⟨.disk 67, [wide "a"]⟩ ⟨.disk 67, [wide "ab"]⟩ := by
  refine ⟨by decide, ?_⟩
  rintro ⟨_, r, h⟩
  cases r <;> simp [wide] at h

end Verif.Paths.Windows
