import Verif.Parser.Wp

set_option autoImplicit false

/-! What it means that the parser accepts an instance of a nonterminal. -/

namespace Verif.Parser

open Language

namespace Forest

/-- The trees of a forest, without error messages and trivia. -/
def shape : Forest → List Shape
  | nil => []
  | tok init k => if k.isTrivia then init.shape else init.shape ++ [.leaf k]
  | err init _ => init.shape
  | tomb init => init.shape
  | node init k pre kids => init.shape ++ [.node k (pre.shape ++ kids.shape)]

/-- The number of error messages. -/
def errs : Forest → Nat
  | nil => 0
  | tok init _ => init.errs
  | err init _ => init.errs + 1
  | tomb init => init.errs
  | node init _ pre kids => init.errs + pre.errs + kids.errs

end Forest

/-- `j` is `i` with the trees `sh` added, and no error. -/
structure Grows (i : Forest) (sh : List Shape) (j : Forest) : Prop where
  shape : j.shape = i.shape ++ sh
  errs : j.errs = i.errs

/-- `sh` is the one tree of a node. -/
def NodeIs (sh : List Shape) (k : Kind) (pre kids : Forest) : Prop :=
  sh = [.node k (pre.shape ++ kids.shape)] ∧ pre.errs = 0 ∧ kids.errs = 0

/-- What `nth 1` and `nth 2` see behind a token is what the grammar expects; the last `c` tokens do not matter. -/
def CleanTo (c : Nat) : List Tok → Prop
  | [] => True
  | t :: ts => (c ≤ ts.length → ((t.kind = .IDENT ∨ t.kind = .INTEGER_NUMBER) → t.la1 = kind0 ts) ∧
      (t.kind = .COLON_COLON → t.la2 ≠ .STAR ∧ t.la2 ≠ .L_BRACE)) ∧ CleanTo c ts

/-- The same of the tokens `w`, followed by `rest`. -/
def Clean : List Tok → List Tok → Prop
  | [], _ => True
  | t :: w, rest => ((t.kind = .IDENT ∨ t.kind = .INTEGER_NUMBER) → t.la1 = kind0 (w ++ rest)) ∧
      (t.kind = .COLON_COLON → t.la2 ≠ .STAR ∧ t.la2 ≠ .L_BRACE) ∧ Clean w rest

/-- The tokens start with one of kind `k`. -/
def Next (k : Kind) (w : List Tok) : Prop := ∃ t l1 l2 r, w = ⟨k, t, l1, l2⟩ :: r

/-- The tokens start with one of the kinds `ks`. -/
def Head (ks : List Kind) (w : List Tok) : Prop := ∃ t w', w = t :: w' ∧ t.kind ∈ ks

theorem CleanTo.cons {c : Nat} {t : Tok} {w : List Tok} (h : CleanTo c (t :: w)) : CleanTo c w := h.2

theorem CleanTo.append {c : Nat} {v w : List Tok} (h : CleanTo c (v ++ w)) : CleanTo c w := by
  induction v with
  | nil => exact h
  | cons t v ih => exact ih h.cons

theorem Clean.to {w rest : List Tok} (h : Clean w rest) : CleanTo rest.length (w ++ rest) := by
  induction w with
  | nil =>
    have : ∀ (r : List Tok) (c : Nat), r.length ≤ c → CleanTo c r := by
      intro r
      induction r with
      | nil => exact fun _ _ => trivial
      | cons t r ih =>
        intro c hc
        have hc : r.length + 1 ≤ c := hc
        exact ⟨fun h => by omega, ih c (by omega)⟩
    exact this rest _ (Nat.le_refl _)
  | cons t w ih => exact ⟨fun _ => ⟨h.1, h.2.1⟩, ih h.2.2⟩

theorem CleanTo.clean {c : Nat} {w rest : List Tok} (hc : c ≤ rest.length) (h : CleanTo c (w ++ rest)) : Clean w rest := by
  induction w with
  | nil => trivial
  | cons t w ih =>
    have := h.1 (show c ≤ (w ++ rest).length by rw [List.length_append]; omega)
    exact ⟨this.1, this.2, ih h.2⟩

/-- The number of identifiers. -/
def idents : List Tok → Nat
  | [] => 0
  | t :: ts => (if t.kind = .IDENT then 1 else 0) + idents ts

theorem idents_nil : idents [] = 0 := rfl

theorem idents_cons (k : Kind) (t : Text) (l1 l2 : Kind) (w : List Tok) :
    idents (⟨k, t, l1, l2⟩ :: w) = (if k = .IDENT then 1 else 0) + idents w := rfl

theorem idents_append (v w : List Tok) : idents (v ++ w) = idents v + idents w := by
  induction v with
  | nil => simp [idents]
  | cons t v ih => simp only [List.cons_append, idents, ih]; omega

/-- The program `p` reads exactly the tokens `w`, if they are followed by `rest` with `fol rest`,
adds the trees `sh`, and returns a result with `R`, after at least as many lookups as there are
identifiers in `w`, and at most `10 * w.length + b - a` lookups. -/
def AcceptsR {α : Type} (p : Prog α) (R : α → Prop) (fol : List Tok → Prop) (a b : Nat) (w : List Tok)
    (sh : List Shape) : Prop :=
  ∀ rest u n i o, Clean w rest → fol rest → ∀ Q : α → TState → Prop,
    (∀ r u' n' i', R r → (u + idents w ≤ u' ∧ u' + a ≤ u + 10 * w.length + b) → Grows i sh i' → Q r ⟨rest, u', n', i', o⟩) →
    WP p ⟨w ++ rest, u, n, i, o⟩ Q

/-- The same with any result. -/
def Accepts {α : Type} (p : Prog α) (fol : List Tok → Prop) (a b : Nat) (w : List Tok)
    (sh : List Shape) : Prop :=
  AcceptsR p (fun _ => True) fol a b w sh

/-- The program `p` reads exactly the tokens `w` and adds one node, which it returns. -/
def AcceptsNode {α : Type} (p : Prog α) (ret : Completed → α) (fol : List Tok → Prop) (a : Nat)
    (w : List Tok) (sh : List Shape) : Prop :=
  ∀ rest u n i o, Clean w rest → fol rest → ∀ Q : α → TState → Prop,
    (∀ c u' n' k pre kids, (u + idents w ≤ u' ∧ u' + a ≤ u + 10 * w.length) → NodeIs sh k pre kids →
      Q (ret c) ⟨rest, u', n', .node i k pre kids, o⟩) →
    WP p ⟨w ++ rest, u, n, i, o⟩ Q

/-- Acceptance of a nonterminal with a left-recursive rule: `p` reads `w`, adds one node, and then
does what `loop` does, which is given the node. -/
def AcceptsLoop {α : Type} (p : Prog α) (loop : Completed → Fn) (ret : (c : Completed) → (loop c).Res → α)
    (fol : List Tok → Prop) (a : Nat) (w : List Tok) (sh : List Shape) : Prop :=
  ∀ rest u n i o, Clean w rest → fol rest → ∀ Q : α → TState → Prop,
    (∀ c u' n' k pre kids, (u + idents w ≤ u' ∧ u' + a ≤ u + 10 * w.length) → NodeIs sh k pre kids →
      WP (body (loop c)) ⟨rest, u', n', .node i k pre kids, o⟩ fun r s => Q (ret c r) s) →
    WP p ⟨w ++ rest, u, n, i, o⟩ Q

/-- Instances of symbols whose nonterminals satisfy `A`. -/
inductive Parts (A : NT → List Tok → List Shape → Prop) : List Sym → List Tok → List Shape → Prop where
  | nil : Parts A [] [] []
  | tok {k : Kind} {t : Text} {l1 l2 : Kind} {syms : List Sym} {w : List Tok} {sh : List Shape} :
      Parts A syms w sh → Parts A (.tok k :: syms) (⟨k, t, l1, l2⟩ :: w) (.leaf k :: sh)
  | hex {t : Text} {l1 l2 : Kind} {syms : List Sym} {w : List Tok} {sh : List Shape} :
      Parts A syms w sh → Parts A (.hex :: syms) (⟨.INTEGER_NUMBER, '0' :: 'x' :: t, l1, l2⟩ :: w)
        (.leaf .DIEM_ADDRESS :: sh)
  | nt {x : NT} {syms : List Sym} {v w : List Tok} {shv sh : List Shape} :
      A x v shv → Parts A syms w sh → Parts A (.nt x :: syms) (v ++ w) (shv ++ sh)

def Tok.pair (t : Tok) : Kind × Text := (t.kind, t.text)

theorem parts_of_derives {A : NT → List Tok → List Shape → Prop}
    (hA : ∀ x k rhs w sh, Rule x k rhs → Parts A rhs w sh → A x w (wrap k sh))
    {syms : List Sym} {ts : List (Kind × Text)} {sh : List Shape} (h : Derives syms ts sh)
    (w : List Tok) (hw : w.map Tok.pair = ts) : Parts A syms w sh := by
  induction h generalizing w with
  | nil =>
    rw [List.map_eq_nil_iff] at hw
    subst hw
    exact .nil
  | tok _ ih =>
    obtain ⟨x, w', rfl, hx, hw'⟩ := List.map_eq_cons_iff.1 hw
    obtain ⟨k, t, l1, l2⟩ := x
    cases hx
    exact .tok (ih w' hw')
  | hex _ ih =>
    obtain ⟨x, w', rfl, hx, hw'⟩ := List.map_eq_cons_iff.1 hw
    obtain ⟨k, t, l1, l2⟩ := x
    cases hx
    exact .hex (ih w' hw')
  | nt hr _ _ ih1 ih2 =>
    obtain ⟨w1, w2, rfl, h1, h2⟩ := List.map_eq_append_iff.1 hw
    exact .nt (hA _ _ _ _ _ hr (ih1 w1 h1)) (ih2 w2 h2)

/-! What may follow an instance. -/

def Any (_ : List Tok) : Prop := True

/-- What stands behind a type. -/
def AfterType (w : List Tok) : Prop := kind0 w ≠ .COLON_COLON

/-- What stands behind an operand of a postfix operator. -/
def AfterAtom (w : List Tok) : Prop := kind0 w ≠ .COLON_COLON ∧ kind0 w ≠ .L_BRACE

/-- What stands behind an operand of an operator. -/
def AfterUnary (w : List Tok) : Prop :=
  kind0 w ≠ .COLON_COLON ∧ kind0 w ≠ .L_BRACE ∧ kind0 w ≠ .L_PAREN ∧ kind0 w ≠ .DOT

/-- What stands behind an expression of a level. -/
def AfterExpr (q : Nat) (w : List Tok) : Prop := AfterUnary w ∧ (opTable (kind0 w)).1 ≤ q

/-- What stands behind an expression that is not an operand. -/
def AfterWhole (w : List Tok) : Prop := AfterUnary w ∧ (opTable (kind0 w)).1 = 0

/-! What an instance starts with. -/

def atomHeads : List Kind :=
  [.TRUE_KW, .FALSE_KW, .INTEGER_NUMBER, .HEX_STRING, .BYTE_STRING, .ATSIGN, .IDENT, .L_PAREN, .L_BRACE]

def exprHeads : List Kind := [.STAR, .BANG, .MINUS] ++ atomHeads

/-- One identifier. -/
def One (sh0 : Shape) (w : List Tok) (sh : List Shape) : Prop :=
  ∃ t l1 l2, w = [⟨.IDENT, t, l1, l2⟩] ∧ sh = [sh0]

def nameShape : Shape := .node .NAME [.leaf .IDENT]
def nameRefShape : Shape := .node .NAME_REF [.leaf .IDENT]
def segmentShape : Shape := .node .PATH_SEGMENT [nameRefShape]
def onePathShape : Shape := .node .PATH [segmentShape]

/-- An identifier or a number with `0x`. -/
def IsAddress (k : Kind) (w : List Tok) (sh : List Shape) : Prop :=
  (∃ t l1 l2, w = [⟨.IDENT, t, l1, l2⟩] ∧ sh = [.node k [.leaf .IDENT]]) ∨
  ∃ t l1 l2, w = [⟨.INTEGER_NUMBER, '0' :: 'x' :: t, l1, l2⟩] ∧ sh = [.node k [.leaf .DIEM_ADDRESS]]

def AccType (w : List Tok) (sh : List Shape) : Prop :=
  Head [.IDENT, .AMP] w ∧ Accepts (body .type_) AfterType 5 0 w sh

def AccBounds : List Tok → List Shape → Prop := Accepts (body .boundsLoop) (kind0 · ≠ .PLUS) 5 0

/-- The parser accepts an instance `w` of a nonterminal, with the trees `sh`. -/
def Acc : NT → List Tok → List Shape → Prop
  | .file, w, sh => Accepts (body .rootLoop) (· = []) 0 5 w sh
  | .moduleDef, w, sh => Head [.MODULE_KW] w ∧ Accepts moduleDef Any 5 0 w sh
  | .scriptDef, w, sh => Head [.SCRIPT_KW] w ∧ Accepts scriptDef Any 5 0 w sh
  | .addressDef, w, sh => Head [.ADDRESS_KW] w ∧ Accepts addressDef Any 5 0 w sh
  | .moduleList, w, sh => Head [.L_BRACE] w ∧ Accepts addressItemList Any 5 0 w sh
  | .modules, w, sh => Accepts (body .addressItemLoop) (Next .R_BRACE) 0 5 w sh
  | .itemBody, w, sh => Head [.L_BRACE] w ∧ Accepts itemList Any 5 0 w sh
  | .items, w, sh => (w = [] ∨ Head [.FUN_KW, .STRUCT_KW] w) ∧
      Accepts (body .itemLoop) (Next .R_BRACE) 0 5 w sh
  | .address, w, sh => IsAddress .ADDRESS_IDENT w sh
  | .name, w, sh => One nameShape w sh
  | .nameRef, w, sh => One nameRefShape w sh
  | .funDef, w, sh => Head [.FUN_KW, .STRUCT_KW] w ∧ Accepts item (kind0 · ≠ .SEMICOLON) 5 0 w sh
  | .structDef, w, sh => Head [.FUN_KW, .STRUCT_KW] w ∧ Accepts item (kind0 · ≠ .SEMICOLON) 5 0 w sh
  | .paramList, w, sh => Head [.L_PAREN] w ∧ Accepts paramList Any 5 0 w sh
  | .params, w, sh => Accepts (body .paramLoop) (Next .R_PAREN) 0 5 w sh
  | .param, w, sh => ∃ t l1 l2 t' m1 m2 v sh', w = ⟨.IDENT, t, l1, l2⟩ :: ⟨.COLON, t', m1, m2⟩ :: v ∧
      AccType v sh' ∧ sh = [.node .PARAM (nameShape :: .leaf .COLON :: sh')]
  | .ret, w, sh => ∃ t l1 l2 v sh', w = ⟨.COLON, t, l1, l2⟩ :: v ∧
      AccType v sh' ∧ sh = [.node .RET_TYPE (.leaf .COLON :: sh')]
  | .genericList, w, sh => Head [.LT] w ∧ Accepts genericParamList Any 5 0 w sh
  | .generics, w, sh => Accepts (body .genericParamLoop) (Next .GT) 0 5 w sh
  | .generic, w, sh => One (.node .TYPE_PARAM [nameShape]) w sh ∨
      ∃ t l1 l2 t' m1 m2 v sh', w = ⟨.IDENT, t, l1, l2⟩ :: ⟨.COLON, t', m1, m2⟩ :: v ∧ AccBounds v sh' ∧
        sh = [.node .TYPE_PARAM [nameShape, .leaf .COLON, .node .TYPE_BOUND_LIST sh']]
  | .boundList, w, sh => ∃ sh', AccBounds w sh' ∧ sh = [.node .TYPE_BOUND_LIST sh']
  | .bounds, w, sh => AccBounds w sh
  | .bound, w, sh => One (.node .TYPE_BOUND [nameShape]) w sh
  | .fieldList, w, sh => Head [.L_BRACE] w ∧ Accepts recordFieldList Any 5 0 w sh
  | .fields, w, sh => Accepts (body .recordFieldLoop) (Next .R_BRACE) 0 5 w sh
  | .field, w, sh => ∃ t l1 l2 t' m1 m2 v sh', w = ⟨.IDENT, t, l1, l2⟩ :: ⟨.COLON, t', m1, m2⟩ :: v ∧
      AccType v sh' ∧ sh = [.node .RECORD_FIELD (nameShape :: .leaf .COLON :: sh')]
  | .type, w, sh => AccType w sh
  | .path, w, sh => Head [.IDENT] w ∧ AcceptsLoop path .pathLoop (fun _ r => r) Any 7 w sh
  | .segment, w, sh => One segmentShape w sh
  | .onePath, w, sh => One onePathShape w sh
  | .pattern, w, sh => Head [.IDENT, .MUT_KW, .L_PAREN] w ∧
      Accepts (body .pattern) (kind0 · ≠ .L_BRACE) 5 0 w sh
  | .patFieldList, w, sh => Head [.L_BRACE] w ∧ Accepts recordPatFieldList Any 5 0 w sh
  | .patFields, w, sh => Accepts (body .recordPatLoop) (Next .R_BRACE) 0 5 w sh
  | .patField, w, sh => Head [.IDENT, .MUT_KW] w ∧
      Accepts recordPatField (fun r => kind0 r ≠ .COLON ∧ kind0 r ≠ .L_BRACE) 5 0 w sh
  | .identPat, w, sh => One (.node .IDENT_PAT [nameShape]) w sh ∨
      ∃ t l1 l2 t' m1 m2, w = [⟨.MUT_KW, t, l1, l2⟩, ⟨.IDENT, t', m1, m2⟩] ∧
        sh = [.node .IDENT_PAT [.leaf .MUT_KW, nameShape]]
  | .pats, w, sh => AcceptsR (body (.tuplePatLoop true true false)) (· = (true, true, false))
      (Next .R_PAREN) 0 5 w sh
  | .block, w, sh => Head [.L_BRACE] w ∧ AcceptsNode blockExprUnchecked id Any 5 w sh
  | .stmts, w, sh => Accepts (body .blockLoop) (Next .R_BRACE) 0 5 w sh
  | .stmt, w, sh => Head (.LET_KW :: exprHeads) w ∧ Accepts (body (.stmt .optional)) Any 5 0 w sh
  | .expr q, w, sh => Head exprHeads w ∧ ∀ bp, 1 ≤ bp → bp ≤ q →
      AcceptsLoop (body (.exprBp bp)) (.exprBpLoop bp) (fun _ r => some r) (AfterExpr q) 5 w sh
  | .unary, w, sh => Head exprHeads w ∧ AcceptsNode lhsExpr some AfterUnary 5 w sh
  | .postfixed, w, sh => Head atomHeads w ∧
      AcceptsLoop lhsExpr .postfixLoop (fun _ r => some r) AfterAtom 5 w sh
  | .atom, w, sh => Head atomHeads w ∧ AcceptsNode atomExpr some AfterAtom 5 w sh
  | .addressLit, w, sh => ∃ t l1 l2 v k, w = ⟨.ATSIGN, t, l1, l2⟩ :: v ∧
      ((∃ t l1 l2, v = [⟨.IDENT, t, l1, l2⟩] ∧ k = .IDENT) ∨
        ∃ t l1 l2, v = [⟨.INTEGER_NUMBER, '0' :: 'x' :: t, l1, l2⟩] ∧ k = .DIEM_ADDRESS) ∧
      sh = [.node .ADDRESS_LIT [.leaf .ATSIGN, .leaf k]]
  | .argList, w, sh => Head [.L_PAREN] w ∧ Accepts argList Any 5 0 w sh
  | .args, w, sh => Accepts (body .argLoop) (Next .R_PAREN) 0 5 w sh
  | .exprFieldList, w, sh => Head [.L_BRACE] w ∧ Accepts recordExprFieldList Any 5 0 w sh
  | .exprFields, w, sh => Accepts (body .recordExprLoop) (Next .R_BRACE) 0 5 w sh
  | .exprField, w, sh => Head [.IDENT] w ∧
      Accepts recordExprField (fun r => Next .COMMA r ∨ Next .R_BRACE r) 3 0 w sh
  | .pathExpr, w, sh => One (.node .PATH_EXPR [onePathShape]) w sh

end Verif.Parser
