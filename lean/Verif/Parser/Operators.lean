import Verif.Parser.Fragment

set_option autoImplicit false

/-!
C35: chains of binary operators.  The specification is the usual one: a tree over the operands is
right if the left operand of an operator contains no looser operator at its top and the right
operand no looser and no equal one.
-/

namespace Verif.Parser

open Language Lexer

/-- A binary operator, with its text, and the operand behind it, with its tree. -/
structure Link where
  op : Kind
  text : Text
  operand : List (Kind × Text)
  tree : List Shape

/-- A tree over operands. -/
inductive Bin where
  | operand (ts : List (Kind × Text)) (tree : List Shape)
  | node (op : Kind) (text : Text) (left right : Bin)

namespace Bin

/-- The tokens of the expression. -/
def tokens : Bin → List (Kind × Text)
  | operand ts _ => ts
  | node op text l r => l.tokens ++ (op, text) :: r.tokens

/-- Its syntax tree. -/
def shapes : Bin → List Shape
  | operand _ tree => tree
  | node op _ l r => [.node .BIN_EXPR (l.shapes ++ .leaf op :: r.shapes)]

/-- `q` is not tighter than the operator at the top, if there is one. -/
def AtLeast (q : Nat) : Bin → Prop
  | operand _ _ => True
  | node op _ _ _ => ∃ p, precedence op = some p ∧ q ≤ p

/-- The tree is grouped by precedence, equal operators from left to right. -/
def Grouped : Bin → Prop
  | operand ts tree => Derives [.nt .unary] ts tree
  | node op _ l r => ∃ q, precedence op = some q ∧ l.AtLeast q ∧ r.AtLeast (q + 1) ∧ l.Grouped ∧ r.Grouped

/-- Adds an operator and an operand at the right end. -/
def add : Bin → Link → Bin
  | operand ts tree, x => node x.op x.text (operand ts tree) (operand x.operand x.tree)
  | node op text l r, x =>
    if (precedence op).getD 0 < (precedence x.op).getD 0 then node op text l (r.add x)
    else node x.op x.text (node op text l r) (operand x.operand x.tree)

theorem add_tokens (b : Bin) (x : Link) : (b.add x).tokens = b.tokens ++ (x.op, x.text) :: x.operand := by
  induction b with
  | operand ts tree => rfl
  | node op text l r _ ihr =>
    unfold add
    split
    · simp [tokens, ihr]
    · rfl

theorem add_atLeast {b : Bin} {x : Link} {q p : Nat} (hx : precedence x.op = some p) (hq : q ≤ p)
    (hb : b.AtLeast q) : (b.add x).AtLeast q := by
  cases b with
  | operand ts tree => exact ⟨p, hx, hq⟩
  | node op text l r =>
    unfold add
    split
    · exact hb
    · exact ⟨p, hx, hq⟩

theorem add_grouped {b : Bin} {x : Link} {p : Nat} (hx : precedence x.op = some p)
    (ht : Derives [.nt .unary] x.operand x.tree) (hb : b.Grouped) : (b.add x).Grouped := by
  induction b with
  | operand ts tree => exact ⟨p, hx, trivial, trivial, hb, ht⟩
  | node op text l r _ ihr =>
    obtain ⟨q, hq, h1, h2, h3, h4⟩ := hb
    unfold add
    rw [hx, hq]
    split
    · rename_i hlt
      simp only [Option.getD_some] at hlt
      exact ⟨q, hq, h1, add_atLeast hx hlt h2, h3, ihr h4⟩
    · rename_i hlt
      simp only [Option.getD_some] at hlt
      exact ⟨p, hx, ⟨q, hq, by omega⟩, trivial, ⟨q, hq, h1, h2, h3, h4⟩, ht⟩

theorem level_le {k : Kind} {q : Nat} (h : precedence k = some q) : 1 ≤ q ∧ q ≤ 11 := by
  revert h
  unfold precedence
  split <;> intro h <;> cases h <;> decide

/-- An expression of a level is one of every lower level. -/
theorem derives_lower {q p : Nat} {ts : List (Kind × Text)} {sh : List Shape} (hq : p ≤ q) (h12 : q ≤ 12)
    (h : Derives [.nt (.expr q)] ts sh) : Derives [.nt (.expr p)] ts sh := by
  induction q with
  | zero => obtain rfl : p = 0 := by omega
            exact h
  | succ q ih =>
    rcases Nat.eq_or_lt_of_le hq with rfl | hlt
    · exact h
    · refine ih (by omega) (by omega) ?_
      have := Derives.nt (.expr_up (q := q) (by omega)) h .nil
      simpa [wrap] using this

theorem derives_snoc {x : Sym} {syms : List Sym} {us ts : List (Kind × Text)} {a b : List Shape}
    (h1 : Derives [x] us a) (h2 : Derives syms ts b) : Derives (x :: syms) (us ++ ts) (a ++ b) := by
  cases h1 with
  | tok h => cases h; exact .tok h2
  | hex h => cases h; exact .hex h2
  | nt hr hi h =>
    cases h
    simp only [List.append_nil]
    exact .nt hr hi h2

/-- A grouped tree is the tree the grammar gives to its tokens. -/
theorem derives {b : Bin} {q : Nat} (hb : b.Grouped) (hq : b.AtLeast q) (h12 : q ≤ 12) :
    Derives [.nt (.expr q)] b.tokens b.shapes := by
  induction b generalizing q with
  | operand ts tree =>
    refine derives_lower h12 (Nat.le_refl _) ?_
    have := Derives.nt .expr_unary hb .nil
    simpa [wrap, tokens, shapes] using this
  | node op text l r ihl ihr =>
    obtain ⟨p, hp, h1, h2, h3, h4⟩ := hb
    obtain ⟨p', hp', hle⟩ := hq
    rw [hp] at hp'
    cases hp'
    have hb := level_le hp
    refine derives_lower hle (by omega) ?_
    have hin : Derives [.nt (.expr p), .tok op, .nt (.expr (p + 1))] (l.tokens ++ (op, text) :: r.tokens)
        (l.shapes ++ .leaf op :: r.shapes) :=
      derives_snoc (ihl h3 h1 (by omega)) (.tok (ihr h4 h2 (by omega)))
    have := Derives.nt (.expr_bin hp) hin .nil
    simpa [wrap, tokens, shapes] using this

end Bin

/-- The operand `first`, followed by operators and operands. -/
def chainTokens (first : List (Kind × Text)) (links : List Link) : List (Kind × Text) :=
  first ++ links.flatMap fun x => (x.op, x.text) :: x.operand

/-- **C35.**  Every chain of binary operators over operands can be grouped by precedence. -/
theorem chain_grouped {first : List (Kind × Text)} {tree : List Shape} {links : List Link}
    (hf : Derives [.nt .unary] first tree)
    (hl : ∀ x ∈ links, (precedence x.op).isSome = true ∧ Derives [.nt .unary] x.operand x.tree) :
    ∃ b : Bin, b.Grouped ∧ b.tokens = chainTokens first links := by
  have key : ∀ (b : Bin), b.Grouped → ∃ b' : Bin, b'.Grouped ∧
      b'.tokens = b.tokens ++ links.flatMap fun x => (x.op, x.text) :: x.operand := by
    clear hf
    induction links with
    | nil => intro b hb; exact ⟨b, hb, by simp⟩
    | cons x links ih =>
      intro b hb
      obtain ⟨h1, h2⟩ := hl x List.mem_cons_self
      obtain ⟨p, hp⟩ := Option.isSome_iff_exists.1 h1
      obtain ⟨b', h3, h4⟩ := ih (fun y hy => hl y (List.mem_cons_of_mem _ hy)) (b.add x)
        (Bin.add_grouped hp h2 hb)
      refine ⟨b', h3, ?_⟩
      rw [h4, Bin.add_tokens]
      simp
  exact key (.operand first tree) hf

/-- A place in a file where an expression stands: whatever expression is put between `before` and
`after` gives a file, whose tree is `around` that of the expression. -/
def Place (before after : List (Kind × Text)) (around : List Shape → List Shape) : Prop :=
  ∀ ts tree, Derives [.nt (.expr 1)] ts tree → Derives [.nt .file] (before ++ ts ++ after) (around tree)

/-- **C35.**  Wherever a chain of binary operators stands in a file, of whatever length, its tree is
the one grouped by precedence and from left to right. -/
theorem parse_operators {text : Text} {ts before after first : List (Kind × Text)} {tree : List Shape}
    {links : List Link} {around : List Shape → List Shape}
    (hlex : Lexes text ts) (hp : Place before after around)
    (hts : significant ts = before ++ chainTokens first links ++ after) (hs : Spaced ts)
    (hf : Derives [.nt .unary] first tree)
    (hl : ∀ x ∈ links, (precedence x.op).isSome = true ∧ Derives [.nt .unary] x.operand x.tree) :
    (∃ b : Bin, b.Grouped ∧ b.tokens = chainTokens first links) ∧
      ∀ b : Bin, b.Grouped → b.tokens = chainTokens first links →
        (∃ green, parse text = .ok .SOURCE_FILE green [] ∧ green.shapes = around b.shapes) ∨
          parse text = .panic .stuck := by
  refine ⟨chain_grouped hf hl, fun b hb ht => ?_⟩
  have low : b.AtLeast 1 := by
    cases b with
    | operand => trivial
    | node op t l r => obtain ⟨q, hq, _⟩ := hb; exact ⟨q, hq, (Bin.level_le hq).1⟩
  have := hp _ _ (Bin.derives hb low (by omega))
  rw [ht, ← hts] at this
  exact parse_valid hlex this hs

/-- **C35.**  The limit is not reached by files of at most 999 tokens. -/
theorem parse_operators_short {text : Text} {ts before after : List (Kind × Text)}
    {around : List Shape → List Shape} {b : Bin} (hlex : Lexes text ts) (hp : Place before after around)
    (hts : significant ts = before ++ b.tokens ++ after) (hs : Spaced ts)
    (hn : (significant ts).length ≤ 999) (hb : b.Grouped) :
    ∃ green, parse text = .ok .SOURCE_FILE green [] ∧ green.shapes = around b.shapes := by
  have low : b.AtLeast 1 := by
    cases b with
    | operand => trivial
    | node op t l r => obtain ⟨q, hq, _⟩ := hb; exact ⟨q, hq, (Bin.level_le hq).1⟩
  have := hp _ _ (Bin.derives hb low (by omega))
  rw [← hts] at this
  exact parse_valid_partial hlex this hs hn

end Verif.Parser
