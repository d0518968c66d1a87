import Verif.TestUtils.TagsModel
import Verif.TestUtils.Annotations

set_option autoImplicit false

/-!
C71: tags of fixtures.
-/

namespace Verif.TestUtils

open Lexer

namespace Spec

/-- A text with tags. -/
inductive Doc where
  | nil
  | char (c : Char) (rest : Doc)
  | tag (attr : Text) (body rest : Doc)
  deriving DecidableEq, Repr

/-- How the text is written, with `<name attr>` and `</name>` for the tags. -/
def Doc.render (name : Text) : Doc → Text
  | .nil => []
  | .char c rest => c :: rest.render name
  | .tag attr body rest =>
    '<' :: name ++ (attr ++ '>' :: (body.render name ++ ('<' :: '/' :: name ++ '>' :: rest.render name)))

/-- The text without the tags. -/
def Doc.plain : Doc → Text
  | .nil => []
  | .char c rest => c :: rest.plain
  | .tag _ body rest => body.plain ++ rest.plain

/-- The tagged ranges of the text without tags, if the text starts at `off`. -/
def Doc.ranges (off : Nat) : Doc → List Tagged
  | .nil => []
  | .char c rest => rest.ranges (off + c.utf8Size)
  | .tag attr body rest =>
    ((off, off + byteLen body.plain), if (Stdx.trim attr).isEmpty then none else some (Stdx.trim attr)) ::
      (body.ranges off ++ rest.ranges (off + byteLen body.plain))

/-- Nothing but the tags looks like a tag, and attributes end at the first `>`. -/
def Doc.Ok (name : Text) : Doc → Prop
  | .nil => True
  | .char c rest => rest.Ok name ∧
      ¬ ('<' :: name) <+: c :: rest.render name ∧ ¬ ('<' :: '/' :: name ++ ['>']) <+: c :: rest.render name
  | .tag attr body rest => '>' ∉ attr ∧ body.Ok name ∧ rest.Ok name

/-- A name of tags. -/
def TagName (name : Text) : Prop :=
  '<' ∉ name ∧ '>' ∉ name ∧ name ≠ [] ∧ name.head? ≠ some '/'

/-- In the order of the starts, shorter ranges first. -/
def Ordered (l : List Tagged) : Prop :=
  l.Pairwise fun a b => a.1.1 < b.1.1 ∨ (a.1.1 = b.1.1 ∧ a.1.2 ≤ b.1.2)

end Spec

open Spec

theorem tagLoop_char (o c : Text) (fuel : Nat) (x : Char) (hx : x ≠ '<') (t res : Text)
    (stack : List (Nat × Option Text)) (rs : List Tagged) :
    tagLoop o c fuel (x :: t) res stack rs = tagLoop o c fuel t (res ++ [x]) stack rs := by
  cases fuel with
  | zero => rfl
  | succ fuel =>
    rw [tagLoop, tagLoop]
    have hx' : (x == '<') = false := by simpa using hx
    rcases first_or_none (· == '<') t with hn | ⟨u, d, r, rfl, hu, hd⟩
    · rw [findChar_none (t := x :: t), findChar_none hn]
      · simp only [List.append_assoc, List.singleton_append]
      · intro y hy
        rcases List.mem_cons.1 hy with rfl | hy
        · exact hx'
        · exact hn y hy
    · have hu2 : ∀ e ∈ x :: u, (e == '<') = false := by
        intro y hy
        rcases List.mem_cons.1 hy with rfl | hy
        · exact hx'
        · exact hu y hy
      rw [← List.cons_append, findChar_prefix r hu2 hd, findChar_prefix r hu hd]
      simp only [sliceRange_zero_prefix, sliceFrom_prefix, List.append_assoc, List.singleton_append]

theorem findChar_head (p : Char → Bool) (x : Char) (t : Text) (h : p x = true) : findChar p (x :: t) = some 0 := by
  simp [findChar, h]

theorem slice_zero (t : Text) : sliceRange t 0 0 = some [] ∧ sliceFrom t 0 = some t := by
  have h1 := sliceRange_zero_prefix [] t
  have h2 := sliceFrom_prefix [] t
  simp only [List.nil_append, byteLen_nil] at h1 h2
  exact ⟨h1, h2⟩

theorem tagLoop_lt (o c : Text) (fuel : Nat) (t res : Text) (stack : List (Nat × Option Text)) (rs : List Tagged)
    (ho : ¬ o <+: '<' :: t) (hc : ¬ c <+: '<' :: t) :
    tagLoop o c (fuel + 1) ('<' :: t) res stack rs = tagLoop o c fuel t (res ++ ['<']) stack rs := by
  rw [tagLoop, findChar_head _ _ _ (by decide)]
  simp only [slice_zero, List.append_nil]
  rw [if_neg (fun h => ho (List.isPrefixOf_iff_prefix.1 h)), if_neg (fun h => hc (List.isPrefixOf_iff_prefix.1 h))]
  have := sliceFrom_prefix ['<'] t
  simp only [List.cons_append, List.nil_append, byteLen_cons, byteLen_nil, show '<'.utf8Size = 1 by decide] at this
  rw [this]

theorem tagLoop_open (name : Text) (hn : TagName name) (c : Text) (fuel : Nat) (attr t res : Text) (ha : '>' ∉ attr)
    (stack : List (Nat × Option Text)) (rs : List Tagged) :
    tagLoop ('<' :: name) c (fuel + 1) ('<' :: name ++ (attr ++ '>' :: t)) res stack rs =
      tagLoop ('<' :: name) c fuel t res
        ((byteLen res, if (Stdx.trim attr).isEmpty then none else some (Stdx.trim attr)) :: stack) rs := by
  rw [tagLoop, List.cons_append, findChar_head _ _ _ (by decide)]
  simp only [slice_zero, List.append_nil]
  have hpre : ('<' :: name).isPrefixOf ('<' :: (name ++ (attr ++ '>' :: t))) = true :=
    List.isPrefixOf_iff_prefix.2 ⟨attr ++ '>' :: t, rfl⟩
  rw [if_pos hpre]
  have hgt : '>'.utf8Size = 1 := by decide
  have hf : findChar (· == '>') ('<' :: (name ++ (attr ++ '>' :: t))) = some (byteLen ('<' :: name) + byteLen attr) := by
    have := findChar_prefix (p := (· == '>')) (u := '<' :: name ++ attr) (c := '>') t (by
      intro d hd
      rcases List.mem_append.1 hd with hd | hd
      · rcases List.mem_cons.1 hd with rfl | hd
        · decide
        · simp only [beq_eq_false_iff_ne]; rintro rfl; exact hn.2.1 hd
      · simp only [beq_eq_false_iff_ne]; rintro rfl; exact ha hd) (by decide)
    rw [byteLen_append] at this
    simpa using this
  rw [hf]
  have h1 := sliceRange_mid ('<' :: name) attr ('>' :: t)
  rw [List.cons_append] at h1
  have h2 := sliceFrom_prefix ('<' :: name ++ (attr ++ ['>'])) t
  rw [show '<' :: name ++ (attr ++ ['>']) ++ t = '<' :: (name ++ (attr ++ '>' :: t)) by simp,
    show byteLen ('<' :: name ++ (attr ++ ['>'])) = byteLen ('<' :: name) + byteLen attr + 1 by
      simp [hgt]; omega] at h2
  simp only [h1, h2]

theorem not_open {name : Text} (hn : TagName name) (t : Text) : ¬ ('<' :: name) <+: '<' :: '/' :: t := by
  obtain ⟨_, _, hne, hh⟩ := hn
  cases name with
  | nil => exact absurd rfl hne
  | cons d name =>
    rintro ⟨r, hr⟩
    simp only [List.cons_append, List.cons.injEq, true_and] at hr
    exact hh (by rw [← hr.1]; rfl)

theorem tagLoop_close (name : Text) (hn : TagName name) (fuel : Nat) (t res : Text) (start : Nat) (attr : Option Text)
    (hs : start ≤ byteLen res) (stack : List (Nat × Option Text)) (rs : List Tagged) :
    tagLoop ('<' :: name) ('<' :: '/' :: name ++ ['>']) (fuel + 1) ('<' :: '/' :: name ++ '>' :: t) res
        ((start, attr) :: stack) rs =
      tagLoop ('<' :: name) ('<' :: '/' :: name ++ ['>']) fuel t res stack (rs ++ [((start, byteLen res), attr)]) := by
  rw [tagLoop, List.cons_append, findChar_head _ _ _ (by decide)]
  simp only [slice_zero, List.append_nil]
  have hno : ¬ ('<' :: name).isPrefixOf ('<' :: ('/' :: name ++ '>' :: t)) = true :=
    fun h => not_open hn _ (List.isPrefixOf_iff_prefix.1 h)
  have hyes : ('<' :: '/' :: name ++ ['>']).isPrefixOf ('<' :: ('/' :: name ++ '>' :: t)) = true :=
    List.isPrefixOf_iff_prefix.2 ⟨t, by simp⟩
  rw [if_neg hno, if_pos hyes]
  have h2 := sliceFrom_prefix ('<' :: '/' :: name ++ ['>']) t
  rw [show '<' :: '/' :: name ++ ['>'] ++ t = '<' :: ('/' :: name ++ '>' :: t) by simp] at h2
  rw [h2]
  simp only [hs, if_true]

theorem tagLoop_stray_close (name : Text) (hn : TagName name) (fuel : Nat) (t res : Text) (rs : List Tagged) :
    tagLoop ('<' :: name) ('<' :: '/' :: name ++ ['>']) fuel ('<' :: '/' :: name ++ '>' :: t) res [] rs = none := by
  cases fuel with
  | zero => rfl
  | succ fuel =>
    rw [tagLoop, List.cons_append, findChar_head _ _ _ (by decide)]
    simp only [slice_zero, List.append_nil]
    have hno : ¬ ('<' :: name).isPrefixOf ('<' :: ('/' :: name ++ '>' :: t)) = true :=
      fun h => not_open hn _ (List.isPrefixOf_iff_prefix.1 h)
    have hyes : ('<' :: '/' :: name ++ ['>']).isPrefixOf ('<' :: ('/' :: name ++ '>' :: t)) = true :=
      List.isPrefixOf_iff_prefix.2 ⟨t, by simp⟩
    rw [if_neg hno, if_pos hyes]
    split <;> simp_all

/-- A tag does not begin inside a text and end behind it, if what is behind begins with `<`. -/
theorem prefix_inside {p t k : Text} (hp : '<' ∉ p) (hk : k = [] ∨ k.head? = some '<') (h : ('<' :: p) <+: t ++ k)
    (ht : t ≠ []) : ('<' :: p) <+: t := by
  cases t with
  | nil => exact absurd rfl ht
  | cons x t =>
    rw [List.cons_append, List.cons_prefix_cons] at h
    rw [List.cons_prefix_cons]
    refine ⟨h.1, ?_⟩
    obtain ⟨r, hr⟩ := h.2
    rcases List.append_eq_append_iff.1 hr with ⟨a, e, _⟩ | ⟨a, e, e'⟩
    · exact ⟨a, e.symm⟩
    · cases a with
      | nil => rw [e, List.append_nil]; exact List.prefix_refl _
      | cons y a =>
        rcases hk with rfl | hk
        · simp at e'
        · rw [e'] at hk
          simp only [List.cons_append, List.head?_cons, Option.some.injEq] at hk
          subst hk
          exact absurd (by rw [e]; simp) hp

/-- The ranges in the order in which the tags are closed. -/
def post (off : Nat) : Doc → List Tagged
  | .nil => []
  | .char c rest => post (off + c.utf8Size) rest
  | .tag attr body rest =>
    post off body ++ ((off, off + byteLen body.plain),
      if (Stdx.trim attr).isEmpty then none else some (Stdx.trim attr)) ::
        post (off + byteLen body.plain) rest

theorem post_perm (d : Doc) (off : Nat) : (post off d).Perm (d.ranges off) := by
  induction d generalizing off with
  | nil => exact .nil
  | char c rest ih => exact ih _
  | tag attr body rest ih1 ih2 =>
    simp only [post, Doc.ranges]
    refine List.perm_middle.trans (.cons _ ?_)
    exact (ih1 _).append (ih2 _)

theorem tagLoop_doc (name : Text) (hn : TagName name) (d : Doc) :
    ∀ (fuel : Nat) (k res : Text) (stack : List (Nat × Option Text)) (rs : List Tagged),
      d.Ok name → (k = [] ∨ k.head? = some '<') → (d.render name ++ k).length < fuel →
      ∃ fuel', k.length < fuel' ∧
        tagLoop ('<' :: name) ('<' :: '/' :: name ++ ['>']) fuel (d.render name ++ k) res stack rs =
          tagLoop ('<' :: name) ('<' :: '/' :: name ++ ['>']) fuel' k (res ++ d.plain) stack
            (rs ++ post (byteLen res) d) := by
  induction d with
  | nil =>
    intro fuel k res stack rs _ _ hf
    exact ⟨fuel, by simpa [Doc.render] using hf, by simp [Doc.render, Doc.plain, post]⟩
  | char c rest ih =>
    intro fuel k res stack rs hok hk hf
    simp only [Doc.Ok] at hok
    obtain ⟨hrest, ho, hc⟩ := hok
    rw [show (Doc.char c rest).render name ++ k = c :: (rest.render name ++ k) from rfl] at hf ⊢
    rw [List.length_cons] at hf
    by_cases hlt : c = '<'
    · subst hlt
      cases fuel with
      | zero => omega
      | succ fuel =>
        rw [tagLoop_lt]
        · obtain ⟨fuel', h1, h2⟩ := ih fuel k (res ++ ['<']) stack rs hrest hk (by omega)
          refine ⟨fuel', h1, ?_⟩
          rw [h2]
          simp [Doc.plain, post]
        · intro h
          exact ho (prefix_inside hn.1 hk h (by simp))
        · intro h
          refine hc (prefix_inside (p := '/' :: name ++ ['>']) ?_ hk h (by simp))
          have := hn.1
          simp [this]
    · rw [tagLoop_char _ _ _ _ hlt]
      obtain ⟨fuel', h1, h2⟩ := ih fuel k (res ++ [c]) stack rs hrest hk (by omega)
      refine ⟨fuel', h1, ?_⟩
      rw [h2]
      simp [Doc.plain, post]
  | tag attr body rest ih1 ih2 =>
    intro fuel k res stack rs hok hk hf
    simp only [Doc.Ok] at hok
    obtain ⟨ha, hb, hr⟩ := hok
    have hlen : ((Doc.tag attr body rest).render name ++ k).length =
        name.length + attr.length + (body.render name).length + name.length + (rest.render name ++ k).length + 5 := by
      simp [Doc.render]; omega
    rw [hlen] at hf
    have e : (Doc.tag attr body rest).render name ++ k =
        '<' :: name ++ (attr ++ '>' :: (body.render name ++ ('<' :: '/' :: name ++ '>' :: (rest.render name ++ k)))) := by
      simp [Doc.render]
    rw [e]
    cases fuel with
    | zero => omega
    | succ fuel =>
      rw [tagLoop_open name hn _ _ _ _ _ ha]
      obtain ⟨fuel1, h1, h2⟩ := ih1 fuel ('<' :: '/' :: name ++ '>' :: (rest.render name ++ k)) res
        ((byteLen res, if (Stdx.trim attr).isEmpty then none else some (Stdx.trim attr)) :: stack) rs hb (.inr rfl)
        (by simp at hf ⊢; omega)
      rw [h2]
      cases fuel1 with
      | zero => omega
      | succ fuel1 =>
        rw [tagLoop_close name hn _ _ _ _ _ (by simp)]
        obtain ⟨fuel2, h3, h4⟩ := ih2 fuel1 k (res ++ body.plain) stack
          (rs ++ post (byteLen res) body ++ [((byteLen res, byteLen (res ++ body.plain)),
            if (Stdx.trim attr).isEmpty then none else some (Stdx.trim attr))]) hr hk (by simp at h1 ⊢; omega)
        refine ⟨fuel2, h3, ?_⟩
        rw [h4]
        simp [Doc.plain, post]

theorem tagLe_trans (a b c : Tagged) (h1 : tagLe a b = true) (h2 : tagLe b c = true) : tagLe a c = true := by
  simp only [tagLe, Bool.or_eq_true, Bool.and_eq_true, decide_eq_true_eq, beq_iff_eq] at *
  omega

theorem tagLe_total (a b : Tagged) : (tagLe a b || tagLe b a) = true := by
  simp only [tagLe, Bool.or_eq_true, Bool.and_eq_true, decide_eq_true_eq, beq_iff_eq]
  omega

/-- C71: extracting the tags of a text gives the text without them and the ranges they enclose with their
attributes, in order. -/
theorem tags_extracted (name : Text) (hn : TagName name) (d : Doc) (h : d.Ok name) :
    ∃ found, extractTags (d.render name) name = some (found, d.plain) ∧ found.Perm (d.ranges 0) ∧ Ordered found := by
  obtain ⟨fuel, hf, e⟩ := tagLoop_doc name hn d ((d.render name).length + 1) [] [] [] [] h (.inl rfl) (by simp)
  simp only [List.append_nil, List.nil_append, byteLen_nil] at e
  refine ⟨(post 0 d).mergeSort tagLe, ?_, (List.mergeSort_perm _ _).trans (post_perm d 0), ?_⟩
  · simp only [extractTags]
    rw [e]
    cases fuel with
    | zero => simp at hf
    | succ fuel => simp [tagLoop, findChar]
  · have := List.pairwise_mergeSort tagLe_trans tagLe_total (post 0 d)
    refine this.imp ?_
    intro a b h
    simpa [tagLe] using h

/-- C71: a closing tag without an opening one is a panic. -/
theorem stray_close_panics (name : Text) (hn : TagName name) (d : Doc) (h : d.Ok name) (rest : Text) :
    extractTags (d.render name ++ ('<' :: '/' :: name ++ '>' :: rest)) name = none := by
  obtain ⟨fuel, hf, e⟩ := tagLoop_doc name hn d ((d.render name ++ ('<' :: '/' :: name ++ '>' :: rest)).length + 1)
    ('<' :: '/' :: name ++ '>' :: rest) [] [] [] h (.inr rfl) (by omega)
  simp only [extractTags]
  rw [e, tagLoop_stray_close name hn]
  rfl

/-- C71: an opening tag without a closing one is a panic. -/
theorem unclosed_panics (name : Text) (hn : TagName name) (d d' : Doc) (h : d.Ok name) (h' : d'.Ok name) (attr : Text)
    (ha : '>' ∉ attr) :
    extractTags (d.render name ++ ('<' :: name ++ (attr ++ '>' :: d'.render name))) name = none := by
  obtain ⟨fuel, hf, e⟩ := tagLoop_doc name hn d ((d.render name ++ ('<' :: name ++ (attr ++ '>' :: d'.render name))).length + 1)
    ('<' :: name ++ (attr ++ '>' :: d'.render name)) [] [] [] h (.inr rfl) (by omega)
  simp only [extractTags]
  rw [e]
  cases fuel with
  | zero => omega
  | succ fuel =>
    rw [tagLoop_open name hn _ _ _ _ _ ha]
    obtain ⟨fuel', hf', e'⟩ := tagLoop_doc name hn d' fuel [] ([] ++ d.plain)
      ((byteLen ([] ++ d.plain), if (Stdx.trim attr).isEmpty then none else some (Stdx.trim attr)) :: [])
      ([] ++ post (byteLen []) d) h' (.inl rfl) (by simp at hf ⊢; omega)
    rw [List.append_nil] at e'
    rw [e']
    cases fuel' with
    | zero => rfl
    | succ fuel' => simp [tagLoop, findChar]

/-- The test of the code, test_utils/src/lib.rs:182-187: its text is a document. -/
example : ∃ d : Doc, d.Ok "tag".toList ∧ TagName "tag".toList ∧
    d.render "tag".toList = "<tag fn>a <<tag>main</tag>() {}</tag>".toList ∧
    d.plain = "a <main() {}".toList ∧
    d.ranges 0 = [((0, 12), some "fn".toList), ((3, 7), none)] := by
  refine ⟨.tag " fn".toList (.char 'a' (.char ' ' (.char '<' (.tag [] (.char 'm' (.char 'a' (.char 'i' (.char 'n' .nil))))
    (.char '(' (.char ')' (.char ' ' (.char '{' (.char '}' .nil))))))))) .nil, ?_, ?_, ?_, ?_, ?_⟩ <;>
  simp [Doc.Ok, TagName, Doc.render, Doc.plain, Doc.ranges, List.cons_prefix_cons] <;> decide

end Verif.TestUtils
