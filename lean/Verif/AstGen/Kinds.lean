import Verif.AstGen.Model
import Verif.Kinds.Props
import Verif.Text.Lemmas

set_option autoImplicit false

/-!
C67: the generator of the syntax kinds, `/repo/crates/generate_ast/src/syntax_kind.rs`, and the
generated `/repo/crates/parser/src/syntax_kind/generated.rs`.
-/

namespace Verif.AstGen

/-- syntax_kind.rs:7-14, `SymbolKindsSrc`. -/
structure KindsSrc where
  punct : List (Text × Text)
  keywords : List Text
  literals : List Text
  tokens : List Text
  nodes : List Text

/-- What `generate_syntax_kinds` writes: the variants of the enum in order, the patterns of the three tests,
the arms of the two lookups.  Simplification: the formatting is left out; the macro `T!` is in `GenModel`. -/
structure KindsOut where
  variants : List Text
  keywordPatterns : List Text
  punctPatterns : List Text
  literalPatterns : List Text
  keywordArms : List (Text × Text)
  charArms : List (Char × Text)
  deriving DecidableEq

/-- syntax_kind.rs:137-144, the kind of a keyword. -/
def keywordKind (kw : Text) : Text := Stdx.toUpperSnakeCase kw ++ "_KW".toList

/-- syntax_kind.rs:117-122, the punctuation of one byte with its character; `len` counts bytes. -/
def singleByte : List (Text × Text) → List (Char × Text)
  | [] => []
  | (token, name) :: rest =>
    if byteLen token = 1 then
      match token with
      | c :: _ => (c, name) :: singleByte rest
      | [] => singleByte rest
    else singleByte rest

/-- syntax_kind.rs:116-232, `generate_syntax_kinds`. -/
def generateKinds (src : KindsSrc) : KindsOut where
  variants := ["TOMBSTONE".toList, "EOF".toList] ++ src.punct.map Prod.snd ++ src.keywords.map keywordKind ++
    src.literals ++ src.tokens ++ src.nodes ++ ["__LAST".toList]
  keywordPatterns := src.keywords.map keywordKind
  punctPatterns := src.punct.map Prod.snd
  literalPatterns := src.literals
  keywordArms := src.keywords.map fun kw => (kw, keywordKind kw)
  charArms := singleByte src.punct

/-- The generated `is_keyword`, syntax_kind.rs:179-185. -/
def KindsOut.isKeyword (o : KindsOut) (k : Text) : Bool := o.keywordPatterns.contains k
/-- The generated `is_punct`, syntax_kind.rs:187-193. -/
def KindsOut.isPunct (o : KindsOut) (k : Text) : Bool := o.punctPatterns.contains k
/-- The generated `is_literal`, syntax_kind.rs:195-202. -/
def KindsOut.isLiteral (o : KindsOut) (k : Text) : Bool := o.literalPatterns.contains k
/-- The generated `from_keyword`, syntax_kind.rs:204-210: the first arm that matches. -/
def KindsOut.fromKeyword (o : KindsOut) (w : Text) : Option Text :=
  (o.keywordArms.find? fun a => a.1 == w).map Prod.snd
/-- The generated `from_char`, syntax_kind.rs:212-218: the first arm that matches. -/
def KindsOut.fromChar (o : KindsOut) (c : Char) : Option Text :=
  (o.charArms.find? fun a => a.1 == c).map Prod.snd

/-! ### The generated functions, for every table -/

/-- C67: `from_keyword` knows exactly the keywords of the table and gives each its own kind. -/
theorem fromKeyword_iff (src : KindsSrc) (w k : Text) :
    (generateKinds src).fromKeyword w = some k ↔ w ∈ src.keywords ∧ k = keywordKind w := by
  unfold KindsOut.fromKeyword generateKinds
  simp only []
  induction src.keywords with
  | nil => simp
  | cons x xs ih =>
    simp only [List.map_cons, List.find?_cons]
    by_cases h : x = w
    · subst h
      simp only [beq_self_eq_true, Option.map_some, Option.some.injEq, List.mem_cons, true_or, true_and]
      exact eq_comm
    · have : (x == w) = false := by simp [h]
      simp only [this]
      rw [ih]
      simp [Ne.symm h]

theorem byteLen_one {t : Text} (h : byteLen t = 1) : ∃ c, t = [c] := by
  cases t with
  | nil => simp at h
  | cons c cs =>
    cases cs with
    | nil => exact ⟨c, rfl⟩
    | cons d ds =>
      simp only [byteLen_cons] at h
      have := c.utf8Size_pos
      have := d.utf8Size_pos
      omega

theorem mem_singleByte (ps : List (Text × Text)) (c : Char) (k : Text) :
    (c, k) ∈ singleByte ps ↔ ([c], k) ∈ ps ∧ c.utf8Size = 1 := by
  induction ps with
  | nil => simp [singleByte]
  | cons p ps ih =>
    obtain ⟨token, name⟩ := p
    simp only [singleByte]
    split
    next h =>
      obtain ⟨d, rfl⟩ := byteLen_one h
      have hd : d.utf8Size = 1 := by simpa using h
      simp only [List.mem_cons, Prod.mk.injEq, List.cons.injEq, and_true]
      rw [ih]
      constructor
      · rintro (⟨rfl, rfl⟩ | ⟨h1, h2⟩)
        · exact ⟨Or.inl ⟨rfl, rfl⟩, hd⟩
        · exact ⟨Or.inr h1, h2⟩
      · rintro ⟨⟨rfl, rfl⟩ | h1, h2⟩
        · exact Or.inl ⟨rfl, rfl⟩
        · exact Or.inr ⟨h1, h2⟩
    next h =>
      rw [ih]
      simp only [List.mem_cons, Prod.mk.injEq]
      constructor
      · rintro ⟨h1, h2⟩; exact ⟨Or.inr h1, h2⟩
      · rintro ⟨⟨rfl, rfl⟩ | h1, h2⟩
        · exact absurd (by simpa using h2) h
        · exact ⟨h1, h2⟩

theorem singleByte_unique (ps : List (Text × Text)) (h : (ps.map Prod.fst).Nodup) (c : Char) (k : Text) :
    ((singleByte ps).find? fun a => a.1 == c).map Prod.snd = some k ↔ (c, k) ∈ singleByte ps := by
  constructor
  · intro hf
    rw [Option.map_eq_some_iff] at hf
    obtain ⟨⟨d, k'⟩, hd, rfl⟩ := hf
    have h1 := List.mem_of_find?_eq_some hd
    have h2 := List.find?_some hd
    simp only [beq_iff_eq] at h2
    rw [← h2]
    exact h1
  · intro hm
    cases hf : (singleByte ps).find? fun a => a.1 == c with
    | none =>
      rw [List.find?_eq_none] at hf
      exact absurd (by simp) (hf _ hm)
    | some a =>
      obtain ⟨d, k'⟩ := a
      have h1 := List.mem_of_find?_eq_some hf
      have h2 := List.find?_some hf
      simp only [beq_iff_eq] at h2
      subst h2
      simp only [Option.map_some, Option.some.injEq]
      have m1 := ((mem_singleByte ps d k).mp hm).1
      have m2 := ((mem_singleByte ps d k').mp h1).1
      clear hf h1 hm
      induction ps with
      | nil => cases m1
      | cons p ps ih =>
        simp only [List.map_cons, List.nodup_cons] at h
        rcases List.mem_cons.mp m1 with e1 | m1 <;> rcases List.mem_cons.mp m2 with e2 | m2
        · rw [← e1] at e2; simp at e2; exact e2
        · exact absurd (List.mem_map.mpr ⟨_, m2, by rw [← e1]⟩) h.1
        · exact absurd (List.mem_map.mpr ⟨_, m1, by rw [← e2]⟩) h.1
        · exact ih h.2 m1 m2

/-- C67: `from_char` knows exactly the punctuation that is one ASCII character. -/
theorem fromChar_iff (src : KindsSrc) (h : (src.punct.map Prod.fst).Nodup) (c : Char) (k : Text) :
    (generateKinds src).fromChar c = some k ↔ ([c], k) ∈ src.punct ∧ c.utf8Size = 1 := by
  rw [← mem_singleByte]
  exact singleByte_unique src.punct h c k

/-- C67: the three tests hold of the kinds of their groups. -/
theorem groups_iff (src : KindsSrc) (k : Text) :
    ((generateKinds src).isKeyword k = true ↔ ∃ w, w ∈ src.keywords ∧ k = keywordKind w) ∧
    ((generateKinds src).isPunct k = true ↔ ∃ s, (s, k) ∈ src.punct) ∧
    ((generateKinds src).isLiteral k = true ↔ k ∈ src.literals) := by
  refine ⟨?_, ?_, ?_⟩
  · simp [KindsOut.isKeyword, generateKinds, eq_comm]
  · simp [KindsOut.isPunct, generateKinds]
  · simp [KindsOut.isLiteral, generateKinds]

/-- C67: if the variants of the enum are distinct (else it does not compile), no kind is in two groups. -/
theorem groups_disjoint (src : KindsSrc) (h : (generateKinds src).variants.Nodup) (k : Text) :
    ¬ ((generateKinds src).isKeyword k = true ∧ (generateKinds src).isPunct k = true) ∧
    ¬ ((generateKinds src).isKeyword k = true ∧ (generateKinds src).isLiteral k = true) ∧
    ¬ ((generateKinds src).isPunct k = true ∧ (generateKinds src).isLiteral k = true) := by
  unfold KindsOut.isKeyword KindsOut.isPunct KindsOut.isLiteral
  simp only [generateKinds] at h ⊢
  simp only [List.nodup_append, List.mem_append, List.contains_iff_mem] at h ⊢
  obtain ⟨⟨⟨⟨⟨⟨_, _, _⟩, _, h2⟩, _, h3⟩, _, _⟩, _, _⟩, _⟩ := h
  refine ⟨?_, ?_, ?_⟩
  · rintro ⟨a, b⟩
    exact h2 k (Or.inr b) k a rfl
  · rintro ⟨a, b⟩
    exact h3 k (Or.inr a) k b rfl
  · rintro ⟨a, b⟩
    exact h3 k (Or.inl (Or.inr a)) k b rfl

/-! ### The table of the repository -/

/-- syntax_kind.rs:16-114, `KINDS_SRC`. -/
def kindsSrc : KindsSrc where
  punct := punct.map fun p => (p.1, p.2.map Stdx.toUpper)
  keywords := ["struct", "script", "module", "const", "use", "as", "let", "mut", "return", "fun", "true",
    "false", "move", "while", "if", "else", "break", "continue", "address"].map String.toList
  literals := ["INTEGER_NUMBER", "BYTE_STRING", "HEX_STRING"].map String.toList
  tokens := ["ERROR", "IDENT", "WHITESPACE", "COMMENT", "DIEM_ADDRESS"].map String.toList
  nodes := ["SOURCE_FILE", "ADDRESS_DEF", "ADDRESS_ITEM_LIST", "MODULE_DEF", "ADDRESS_IDENT", "SCRIPT_DEF",
    "FUNCTION_DEF", "ITEM_LIST", "NAME_REF", "STRUCT", "RECORD_FIELD_LIST", "RECORD_FIELD",
    "GENERIC_PARAM_LIST", "TYPE_PARAM", "TYPE_BOUND_LIST", "TYPE_BOUND", "PARAM_LIST", "PARAM", "RET_TYPE",
    "EXPR", "BLOCK_EXPR", "DOT_EXPR", "CALL_EXPR", "ARG_LIST", "RECORD_EXPR", "RECORD_EXPR_FIELD_LIST",
    "RECORD_EXPR_FIELD", "LITERAL", "PATH", "PATH_SEGMENT", "NAME", "BIN_EXPR", "PREFIX_EXPR", "PATH_EXPR",
    "PAREN_EXPR", "EXPR_STMT", "LET_STMT", "REF_TYPE", "PATH_TYPE", "PAREN_PAT", "TUPLE_PAT", "RECORD_PAT",
    "RECORD_PAT_FIELD_LIST", "RECORD_PAT_FIELD", "PATH_PAT", "WILDCARD_PAT", "REST_PAT", "IDENT_PAT",
    "ADDRESS_LIT"].map String.toList

/-- The name of a kind as a text. -/
def kindName (k : Kind) : Text := k.debugName.toList

/-- C67: the committed kinds are the generated ones: the enum has the generated variants in the same order. -/
theorem committed_variants : (generateKinds kindsSrc).variants = Kind.all.map kindName := by decide +kernel

/-- C67: the committed `from_keyword` is the generated one, on every text. -/
theorem committed_fromKeyword (w : Text) :
    (Kind.fromKeyword w).map kindName = (generateKinds kindsSrc).fromKeyword w := by
  have h : (Kind.keywords.map fun e => (e.1, kindName e.2)) = (generateKinds kindsSrc).keywordArms := by
    decide +kernel
  unfold Kind.fromKeyword KindsOut.fromKeyword
  rw [← h]
  induction Kind.keywords with
  | nil => rfl
  | cons e es ih =>
    simp only [List.map_cons, List.find?_cons]
    cases e.1 == w with
    | true => rfl
    | false => exact ih

/-- C67: a text is a keyword of the language exactly when it is in the table; then it has the kind of
that keyword. -/
theorem keyword_iff (w : Text) (k : Kind) :
    Kind.fromKeyword w = some k ↔ w ∈ kindsSrc.keywords ∧ kindName k = keywordKind w := by
  have hinj : ∀ a b : Kind, kindName a = kindName b → a = b := by
    intro a b h
    have hd : (Kind.all.map kindName).Nodup := by decide +kernel
    have ha := Kind.all_getElem a
    have hb := Kind.all_getElem b
    have la : a.toNat < (Kind.all.map kindName).length := by
      rw [List.length_map, Kind.all_length]; exact Kind.toNat_lt a
    apply Kind.toNat_inj
    apply (List.getElem?_inj la hd).1
    simp [ha, hb, h]
  rw [← fromKeyword_iff, ← committed_fromKeyword]
  cases Kind.fromKeyword w with
  | none => simp
  | some k' =>
    simp only [Option.map_some, Option.some.injEq]
    constructor
    · rintro rfl; rfl
    · exact hinj _ _

example : (kindsSrc.punct.map Prod.fst).Nodup ∧ (generateKinds kindsSrc).variants.Nodup ∧
    (generateKinds kindsSrc).fromChar '%' = some "MOD".toList ∧
    (generateKinds kindsSrc).fromKeyword "fun".toList = some "FUN_KW".toList ∧
    (generateKinds kindsSrc).charArms.length = 25 := by decide +kernel

end Verif.AstGen
