import Mathlib.Data.List.Basic
import Mathlib.Data.List.Forall2
import Mathlib.Algebra.Field.Rat
import Mathlib.Tactic.Cases
import Mathlib.Tactic.NormNum

/-
Model of the operators that evaluate expressions with numexpr: src/pyoperators/linear.py:638-731 (`DiagonalNumexprOperator`) and src/pyoperators/nonlinear.py:643-687 (`NumexprOperator`); and property C99.
-/

namespace Verif.Numexpr

/-! ### Model: expressions -/

/-- The names of variables and functions: the local variables of the methods `direct`, and those that the user chooses. -/
inductive Nm where
  | self
  | input
  | output
  | operation
  | expr
  | op
  | user (n : Nat)
deriving DecidableEq

/-- The tokens of the text of an expression. -/
inductive Tok where
  | num (n : Nat)
  | name (n : Nm)
  | plus
  | minus
  | times
  | div
  | pow
  | lpar
  | rpar
deriving DecidableEq

inductive Ast where
  | num (n : Nat)
  | name (n : Nm)
  | neg (a : Ast)
  | add (a b : Ast)
  | sub (a b : Ast)
  | mul (a b : Ast)
  | div (a b : Ast)
  | pow (a b : Ast)
  | call (f : Nm) (a : Ast)
deriving DecidableEq

/-- The non-terminals of the grammar; the tails carry what has been read. -/
inductive NT where
  | expr
  | exprTail (a : Ast)
  | term
  | termTail (a : Ast)
  | factor
  | power
  | powerTail (a : Ast)
  | atom

/-- The grammar of the arithmetic expressions of Python, with which numexpr parses the text: sums of products of signed powers.  The first argument bounds the recursion. -/
def parse : Nat → NT → List Tok → Option (Ast × List Tok)
  | 0, _, _ => none
  | f + 1, .expr, ts => (parse f .term ts).bind fun p => parse f (.exprTail p.1) p.2
  | f + 1, .exprTail a, ts =>
    match ts with
    | .plus :: ts => (parse f .term ts).bind fun p => parse f (.exprTail (.add a p.1)) p.2
    | .minus :: ts => (parse f .term ts).bind fun p => parse f (.exprTail (.sub a p.1)) p.2
    | ts => some (a, ts)
  | f + 1, .term, ts => (parse f .factor ts).bind fun p => parse f (.termTail p.1) p.2
  | f + 1, .termTail a, ts =>
    match ts with
    | .times :: ts => (parse f .factor ts).bind fun p => parse f (.termTail (.mul a p.1)) p.2
    | .div :: ts => (parse f .factor ts).bind fun p => parse f (.termTail (.div a p.1)) p.2
    | ts => some (a, ts)
  | f + 1, .factor, ts =>
    match ts with
    | .minus :: ts => (parse f .factor ts).bind fun p => some (.neg p.1, p.2)
    | ts => parse f .power ts
  | f + 1, .power, ts => (parse f .atom ts).bind fun p => parse f (.powerTail p.1) p.2
  | f + 1, .powerTail a, ts =>
    match ts with
    | .pow :: ts => (parse f .factor ts).bind fun p => some (.pow a p.1, p.2)
    | ts => some (a, ts)
  | f + 1, .atom, ts =>
    match ts with
    | .num n :: ts => some (.num n, ts)
    | .name n :: .lpar :: ts => (parse f .expr ts).bind fun p => match p.2 with | .rpar :: ts => some (.call n p.1, ts) | _ => none
    | .name n :: ts => some (.name n, ts)
    | .lpar :: ts => (parse f .expr ts).bind fun p => match p.2 with | .rpar :: ts => some (p.1, ts) | _ => none
    | _ => none

/-- The text is that of the expression. -/
def Parses (ts : List Tok) (e : Ast) : Prop := ∃ f, parse f .expr ts = some (e, [])

variable {K : Type} [Field K]

/-- The powers and the functions that numexpr knows. -/
structure Functions (K : Type) where
  pow : K → K → K
  fn : Nm → Option (K → K)

/-- The values of the variables: scalars and arrays. -/
inductive Val (K : Type) where
  | scalar (c : K)
  | array (shape : List Nat) (get : List Nat → K)

/-- The shape can be broadcast to the shape of the output, to which its last dimensions are compared. -/
def compatible (sh S : List Nat) : Bool :=
  decide (sh.length ≤ S.length) && (sh.zip (S.drop (S.length - sh.length))).all fun p => p.1 == 1 || p.1 == p.2

/-- The index in the array, given that of the output. -/
def bindex (sh idx : List Nat) : List Nat := (sh.zip (idx.drop (idx.length - sh.length))).map fun p => if p.1 = 1 then 0 else p.2

def Val.at (S idx : List Nat) : Val K → Option K
  | .scalar c => some c
  | .array sh get => if compatible sh S then some (get (bindex sh idx)) else none

/-- The value of an expression at an index of the output, of shape S; `none` is an exception. -/
def evalAt (F : Functions K) (look : Nm → Option (Val K)) (S idx : List Nat) : Ast → Option K
  | .num n => some n
  | .name n => (look n).bind (Val.at S idx)
  | .neg a => (evalAt F look S idx a).map fun x => -x
  | .add a b => (evalAt F look S idx a).bind fun x => (evalAt F look S idx b).map fun y => x + y
  | .sub a b => (evalAt F look S idx a).bind fun x => (evalAt F look S idx b).map fun y => x - y
  | .mul a b => (evalAt F look S idx a).bind fun x => (evalAt F look S idx b).map fun y => x * y
  | .div a b => (evalAt F look S idx a).bind fun x => (evalAt F look S idx b).map fun y => x / y
  | .pow a b => (evalAt F look S idx a).bind fun x => (evalAt F look S idx b).map fun y => F.pow x y
  | .call f a => (F.fn f).bind fun g => (evalAt F look S idx a).map g

/-- `numexpr.evaluate(text, out=output)` at an index of the output. -/
def Evaluates (F : Functions K) (ts : List Tok) (look : Nm → Option (Val K)) (S idx : List Nat) (r : Option K) : Prop :=
  ∃ e, Parses ts e ∧ evalAt F look S idx e = r

def Val.transpose : Val K → Val K
  | .scalar c => .scalar c
  | .array sh get => .array sh.reverse fun idx => get idx.reverse

/-! ### Model: the operators -/

/-- `DiagonalNumexprOperator(data, expr, global_dict, var, broadcast)`: src/pyoperators/linear.py:665-700. -/
structure Diagonal (K : Type) where
  shape : List Nat
  data : List Nat → K
  text : List Tok
  globals : Nm → Option (Val K)
  var : Nm
  rightward : Bool

/-- `_global_dict`: src/pyoperators/linear.py:693-699. -/
def Diagonal.dict (d : Diagonal K) (n : Nm) : Option (Val K) :=
  if n = d.var then some (if d.rightward then (Val.array d.shape d.data).transpose else .array d.shape d.data) else d.globals n

/-- The variables of the expression in `direct`: numexpr looks them up in the local variables of the caller (self, input and output) and then in global_dict. -/
def Diagonal.look (d : Diagonal K) (input output : Val K) : Nm → Option (Val K)
  | .self => none
  | .input => some input
  | .output => some output
  | n => d.dict n

/-- `DiagonalNumexprOperator.direct`: src/pyoperators/linear.py:702-708: the element idx of the output, for an input of shape S. -/
def Diagonal.direct (F : Functions K) (d : Diagonal K) (S : List Nat) (input output : List Nat → K) (idx : List Nat) (r : Option K) : Prop :=
  let text := [Tok.lpar] ++ d.text ++ [.rpar] ++ [.times, .name .input]
  if d.rightward then
    Evaluates F text (d.look (Val.array S input).transpose (Val.array S output).transpose) S.reverse idx.reverse r
  else Evaluates F text (d.look (.array S input) (.array S output)) S idx r

/-- `get_data`: src/pyoperators/linear.py:710-714: the element k, if the data is the array of the expression with the largest shape. -/
def Diagonal.getData (F : Functions K) (d : Diagonal K) (k : List Nat) (r : Option K) : Prop :=
  Evaluates F d.text (fun n => if n = d.var then some (.array d.shape d.data) else d.globals n) d.shape k r

/-- The sliced operators of `_rule_block`, along the first axis: src/pyoperators/linear.py:716-731 and src/pyoperators/core.py:4096-4109. -/
def Diagonal.slice (d : Diagonal K) (start len : Nat) : Diagonal K :=
  { d with
    shape := match d.shape with | [] => [] | _ :: s => len :: s
    data := fun idx => match idx with | [] => d.data [] | i :: idx => d.data ((start + i) :: idx) }

/-- The reduction operations and their symbols: src/pyoperators/utils/misc.py:738-743. -/
inductive Operation where
  | assignment
  | iadd
  | isub
  | imul
  | itruediv
deriving DecidableEq

def Operation.symbol : Operation → Tok
  | .isub => .minus
  | .imul => .times
  | .itruediv => .div
  | _ => .plus

/-- The variables of the expression in `NumexprOperator.direct`: the local variables are self, input, output, operation, expr and, when the operation is not the assignment, op. -/
def numexprLook (globals : Nm → Option (Val K)) (operation : Operation) (input output : Val K) : Nm → Option (Val K)
  | .self => none
  | .operation => none
  | .expr => none
  | .input => some input
  | .output => some output
  | .op => if operation = .assignment then globals .op else none
  | n => globals n

/-- `NumexprOperator.direct`: src/pyoperators/nonlinear.py:673-679: the element idx of the output. -/
def numexprDirect (F : Functions K) (text : List Tok) (globals : Nm → Option (Val K)) (operation : Operation) (S : List Nat) (input output : List Nat → K) (idx : List Nat) (r : Option K) : Prop :=
  let look := numexprLook globals operation (.array S input) (.array S output)
  if operation = .assignment then Evaluates F text look S idx r
  else Evaluates F ([Tok.name .output] ++ [operation.symbol] ++ [.lpar] ++ text ++ [.rpar]) look S idx r

/-! ### Specification -/

/-- The value of an expression, given those of its variables. -/
def value (F : Functions K) (env : Nm → Option K) : Ast → Option K
  | .num n => some n
  | .name n => env n
  | .neg a => (value F env a).map fun x => -x
  | .add a b => (value F env a).bind fun x => (value F env b).map fun y => x + y
  | .sub a b => (value F env a).bind fun x => (value F env b).map fun y => x - y
  | .mul a b => (value F env a).bind fun x => (value F env b).map fun y => x * y
  | .div a b => (value F env a).bind fun x => (value F env b).map fun y => x / y
  | .pow a b => (value F env a).bind fun x => (value F env b).map fun y => F.pow x y
  | .call f a => (F.fn f).bind fun g => (value F env a).map g

/-- The variables of an expression. -/
def Ast.vars : Ast → List Nm
  | .num _ => []
  | .name n => [n]
  | .neg a => a.vars
  | .add a b => a.vars ++ b.vars
  | .sub a b => a.vars ++ b.vars
  | .mul a b => a.vars ++ b.vars
  | .div a b => a.vars ++ b.vars
  | .pow a b => a.vars ++ b.vars
  | .call _ a => a.vars

/-- The index k of the data for the index idx of the input: the first (or last) indices, or 0 along the dimensions equal to 1. -/
def IsCoefficient (rightward : Bool) (sh S idx k : List Nat) : Prop :=
  ∃ dims rest part other, S = (if rightward then dims ++ rest else rest ++ dims) ∧ idx = (if rightward then part ++ other else other ++ part) ∧ rest.length = other.length ∧
    List.Forall₂ (fun d n => d = 1 ∨ d = n) sh dims ∧ sh.length = part.length ∧ k = (sh.zip part).map fun p => if p.1 = 1 then 0 else p.2

/-- The indices of the elements of an array. -/
def InBounds (S idx : List Nat) : Prop := List.Forall₂ (fun i n => i < n) idx S

/-- The symbol of the operation, as a function. -/
def Operation.apply (o : Operation) (x y : K) : K :=
  match o with
  | .assignment => y
  | .iadd => x + y
  | .isub => x - y
  | .imul => x * y
  | .itruediv => x / y

/-! ### Proofs: expressions -/

theorem parse_mono : ∀ (f : Nat) (nt : NT) (ts : List Tok) (r : Ast × List Tok), parse f nt ts = some r → parse (f + 1) nt ts = some r := by
  intro f
  induction f with
  | zero => intro nt ts r h; cases h
  | succ f ih =>
    intro nt ts r h
    have hb : ∀ (nt : NT) (ts : List Tok) (g g' : Ast × List Tok → Option (Ast × List Tok)) (r : Ast × List Tok), (∀ p r, g p = some r → g' p = some r) →
        (parse f nt ts).bind g = some r → (parse (f + 1) nt ts).bind g' = some r := by
      intro nt ts g g' r hg h
      obtain ⟨p, hp, h⟩ := Option.bind_eq_some_iff.1 h
      rw [ih _ _ _ hp]
      exact hg p r h
    cases nt with
    | expr => exact hb _ _ _ _ _ (fun p r h => ih _ _ _ h) h
    | exprTail a =>
      rw [parse.eq_def] at h ⊢
      dsimp only at h ⊢
      split at h
      · exact hb _ _ _ _ _ (fun p r h => ih _ _ _ h) h
      · exact hb _ _ _ _ _ (fun p r h => ih _ _ _ h) h
      · exact h
    | term => exact hb _ _ _ _ _ (fun p r h => ih _ _ _ h) h
    | termTail a =>
      rw [parse.eq_def] at h ⊢
      dsimp only at h ⊢
      split at h
      · exact hb _ _ _ _ _ (fun p r h => ih _ _ _ h) h
      · exact hb _ _ _ _ _ (fun p r h => ih _ _ _ h) h
      · exact h
    | factor =>
      rw [parse.eq_def] at h ⊢
      dsimp only at h ⊢
      split at h
      · exact hb _ _ _ _ _ (fun p r h => h) h
      · exact ih _ _ _ h
    | power => exact hb _ _ _ _ _ (fun p r h => ih _ _ _ h) h
    | powerTail a =>
      rw [parse.eq_def] at h ⊢
      dsimp only at h ⊢
      split at h
      · exact hb _ _ _ _ _ (fun p r h => h) h
      · exact h
    | atom =>
      rw [parse.eq_def] at h ⊢
      dsimp only at h ⊢
      split at h
      · exact h
      · exact hb _ _ _ _ _ (fun p r h => h) h
      · exact h
      · exact hb _ _ _ _ _ (fun p r h => h) h
      · exact h

theorem parse_le {f f' : Nat} (hf : f ≤ f') {nt : NT} {ts : List Tok} {r : Ast × List Tok} (h : parse f nt ts = some r) : parse f' nt ts = some r := by
  induction hf with
  | refl => exact h
  | step _ ih => exact parse_mono _ _ _ _ ih

/-- A text is that of one expression. -/
theorem parses_unique {ts : List Tok} {e e' : Ast} (h : Parses ts e) (h' : Parses ts e') : e = e' := by
  obtain ⟨f, h⟩ := h
  obtain ⟨f', h'⟩ := h'
  have h1 := parse_le (Nat.le_max_left f f') h
  have h2 := parse_le (Nat.le_max_right f f') h'
  rw [h1] at h2
  injection h2 with h2
  exact congrArg Prod.fst h2

/-- A closing parenthesis ends an expression. -/
theorem parse_append (m : List Tok) : ∀ (f : Nat) (nt : NT) (ts : List Tok) (e : Ast) (r : List Tok), parse f nt ts = some (e, r) → parse f nt (ts ++ .rpar :: m) = some (e, r ++ .rpar :: m) := by
  intro f
  induction f with
  | zero => intro nt ts e r h; cases h
  | succ f ih =>
    intro nt ts e r h
    have hb : ∀ (nt : NT) (ts : List Tok) (g : Ast × List Tok → Option (Ast × List Tok)) (e : Ast) (r : List Tok),
        (∀ a t, g (a, t) = some (e, r) → g (a, t ++ .rpar :: m) = some (e, r ++ .rpar :: m)) →
        (parse f nt ts).bind g = some (e, r) → (parse f nt (ts ++ .rpar :: m)).bind g = some (e, r ++ .rpar :: m) := by
      intro nt ts g e r hg h
      obtain ⟨p, hp, h⟩ := Option.bind_eq_some_iff.1 h
      rw [ih _ _ p.1 p.2 hp]
      exact hg p.1 p.2 h
    cases nt with
    | expr => exact hb _ _ _ _ _ (fun a t h => ih _ _ _ _ h) h
    | exprTail a =>
      rw [parse.eq_def] at h
      dsimp only at h
      split at h
      · exact hb _ _ _ _ _ (fun a t h => ih _ _ _ _ h) h
      · exact hb _ _ _ _ _ (fun a t h => ih _ _ _ _ h) h
      · cases h
        rename_i h1 h2
        cases ts with
        | nil => rfl
        | cons t ts =>
          rw [List.cons_append, parse.eq_def]
          dsimp only
          cases t <;> first | rfl | exact absurd rfl (h1 _) | exact absurd rfl (h2 _)
    | term => exact hb _ _ _ _ _ (fun a t h => ih _ _ _ _ h) h
    | termTail a =>
      rw [parse.eq_def] at h
      dsimp only at h
      split at h
      · exact hb _ _ _ _ _ (fun a t h => ih _ _ _ _ h) h
      · exact hb _ _ _ _ _ (fun a t h => ih _ _ _ _ h) h
      · cases h
        rename_i h1 h2
        cases ts with
        | nil => rfl
        | cons t ts =>
          rw [List.cons_append, parse.eq_def]
          dsimp only
          cases t <;> first | rfl | exact absurd rfl (h1 _) | exact absurd rfl (h2 _)
    | factor =>
      rw [parse.eq_def] at h
      dsimp only at h
      split at h
      · refine hb _ _ _ _ _ (fun a t h => ?_) h
        cases h; rfl
      · rename_i h1
        have := ih _ _ _ _ h
        cases ts with
        | nil => exact this
        | cons t ts =>
          rw [List.cons_append, parse.eq_def]
          dsimp only
          cases t <;> first | exact this | exact absurd rfl (h1 _)
    | power => exact hb _ _ _ _ _ (fun a t h => ih _ _ _ _ h) h
    | powerTail a =>
      rw [parse.eq_def] at h
      dsimp only at h
      split at h
      · refine hb _ _ _ _ _ (fun a t h => ?_) h
        cases h; rfl
      · cases h
        rename_i h1
        cases ts with
        | nil => rfl
        | cons t ts =>
          rw [List.cons_append, parse.eq_def]
          dsimp only
          cases t <;> first | rfl | exact absurd rfl (h1 _)
    | atom =>
      have hclose : ∀ (k : Ast → Ast) (a : Ast) (t : List Tok), (match t with | .rpar :: ts => some (k a, ts) | _ => none) = some (e, r) →
          (match t ++ .rpar :: m with | .rpar :: ts => some (k a, ts) | _ => none) = some (e, r ++ .rpar :: m) := by
        intro k a t h
        split at h
        · cases h; rfl
        · cases h
      rw [parse.eq_def] at h
      dsimp only at h
      split at h
      · cases h; rfl
      · exact hb _ _ _ _ _ (fun a t h => hclose (Ast.call _) a t h) h
      · rename_i n ts' h1
        cases h
        cases r with
        | nil => rfl
        | cons t ts => cases t <;> first | rfl | exact absurd rfl (h1 _)
      · exact hb _ _ _ _ _ (fun a t h => hclose id a t h) h
      · cases h

/-- `(` text `)` is read as an operand. -/
theorem parse_parens {ts : List Tok} {e : Ast} (h : Parses ts e) (m : List Tok) (hm : ∀ t ts, m ≠ .pow :: t :: ts ∧ m ≠ [.pow]) : ∃ f, parse f .factor (.lpar :: ts ++ .rpar :: m) = some (e, m) := by
  obtain ⟨f, h⟩ := h
  have h1 := parse_append m f .expr ts e [] h
  refine ⟨f + 3, ?_⟩
  have hatom : parse (f + 1) .atom (.lpar :: (ts ++ .rpar :: m)) = some (e, m) := by
    rw [parse]
    simp only [h1]
    rfl
  rw [List.cons_append, parse]
  · rw [parse, hatom]
    rw [Option.bind_some, parse]
    · intro ts' e'
      cases ts' with
      | nil => exact (hm .plus []).2 e'
      | cons t ts' => exact (hm t ts').1 e'
  · intro ts' e'; cases e'

/-- `(text) * input` -/
theorem parses_times {ts : List Tok} {e : Ast} (h : Parses ts e) (n : Nm) : Parses ([Tok.lpar] ++ ts ++ [.rpar] ++ [.times, .name n]) (.mul e (.name n)) := by
  obtain ⟨f, hf⟩ := parse_parens h [.times, .name n] (fun t ts => by simp)
  have e1 : [Tok.lpar] ++ ts ++ [.rpar] ++ [.times, .name n] = .lpar :: ts ++ .rpar :: [.times, .name n] := by simp
  have h2 : parse (f + 6) .factor (.lpar :: ts ++ .rpar :: [.times, .name n]) = some (e, [.times, .name n]) := parse_le (by omega) hf
  refine ⟨f + 8, ?_⟩
  rw [e1, parse, parse, h2]
  rfl

/-- `name op (text)` -/
theorem parses_operation {ts : List Tok} {e : Ast} (h : Parses ts e) (n : Nm) (o : Operation) (ho : o ≠ .assignment) :
    Parses ([Tok.name n] ++ [o.symbol] ++ [.lpar] ++ ts ++ [.rpar])
      (match o with | .isub => .sub (.name n) e | .imul => .mul (.name n) e | .itruediv => .div (.name n) e | _ => .add (.name n) e) := by
  obtain ⟨f, hf⟩ := parse_parens h [] (fun t ts => by simp)
  have e1 : [Tok.name n] ++ [o.symbol] ++ [.lpar] ++ ts ++ [.rpar] = .name n :: o.symbol :: (.lpar :: ts ++ [.rpar]) := by simp
  have hk : ∀ k, f ≤ k → parse k .factor (.lpar :: ts ++ [.rpar]) = some (e, []) := fun k hk => parse_le hk hf
  have hn : ∀ k ts, parse (k + 3) .factor (.name n :: o.symbol :: ts) = some (.name n, o.symbol :: ts) := by
    intro k ts
    cases o <;> rfl
  have ht : parse (f + 5) .term (.lpar :: ts ++ [.rpar]) = some (e, []) := by
    rw [parse, hk (f + 4) (by omega)]
    rfl
  refine ⟨f + 7, ?_⟩
  rw [e1, parse, parse, hn (f + 2)]
  generalize .lpar :: ts ++ [.rpar] = rest at *
  cases o with
  | assignment => exact absurd rfl ho
  | iadd =>
    show (parse (f + 5) .term rest).bind _ = _
    rw [ht]; rfl
  | isub =>
    show (parse (f + 5) .term rest).bind _ = _
    rw [ht]; rfl
  | imul =>
    show Option.bind ((parse (f + 4) .factor rest).bind _) _ = _
    rw [hk (f + 4) (by omega)]; rfl
  | itruediv =>
    show Option.bind ((parse (f + 4) .factor rest).bind _) _ = _
    rw [hk (f + 4) (by omega)]; rfl

/-- Variables whose values at an index are those of the environment. -/
theorem evalAt_value (F : Functions K) (look : Nm → Option (Val K)) (S idx : List Nat) (env : Nm → Option K) (e : Ast)
    (h : ∀ n ∈ e.vars, (look n).bind (Val.at S idx) = env n) : evalAt F look S idx e = value F env e := by
  induction e with
  | num n => rfl
  | name n => exact h n (by simp [Ast.vars])
  | neg a ih => rw [evalAt, value, ih h]
  | add a b iha ihb => rw [evalAt, value, iha fun n hn => h n (by simp [Ast.vars, hn]), ihb fun n hn => h n (by simp [Ast.vars, hn])]
  | sub a b iha ihb => rw [evalAt, value, iha fun n hn => h n (by simp [Ast.vars, hn]), ihb fun n hn => h n (by simp [Ast.vars, hn])]
  | mul a b iha ihb => rw [evalAt, value, iha fun n hn => h n (by simp [Ast.vars, hn]), ihb fun n hn => h n (by simp [Ast.vars, hn])]
  | div a b iha ihb => rw [evalAt, value, iha fun n hn => h n (by simp [Ast.vars, hn]), ihb fun n hn => h n (by simp [Ast.vars, hn])]
  | pow a b iha ihb => rw [evalAt, value, iha fun n hn => h n (by simp [Ast.vars, hn]), ihb fun n hn => h n (by simp [Ast.vars, hn])]
  | call f a ih => rw [evalAt, value, ih h]

/-! ### Proofs: broadcasting -/

theorem at_leftward (sh S idx k : List Nat) (get : List Nat → K) (h : IsCoefficient false sh S idx k) : (Val.array sh get).at S idx = some (get k) := by
  obtain ⟨dims, rest, part, other, hS, hidx, hro, hd, hp, hk⟩ := h
  simp only [Bool.false_eq_true, if_false] at hS hidx
  have hl := hd.length_eq
  have hc : compatible sh S = true := by
    have e1 : S.drop (S.length - sh.length) = dims := by
      rw [hS, List.length_append, hl, Nat.add_sub_cancel, List.drop_left]
    rw [compatible, e1]
    simp only [Bool.and_eq_true, decide_eq_true_eq]
    refine ⟨by rw [hS, List.length_append, hl]; omega, ?_⟩
    clear e1 hS hp hk hl
    induction hd with
    | nil => rfl
    | cons h _ ih =>
      rw [List.zip_cons_cons, List.all_cons, ih, Bool.and_true]
      simpa using h
  have hb : bindex sh idx = k := by
    rw [bindex, hk, hidx, List.length_append, hp, Nat.add_sub_cancel, List.drop_left]
  rw [Val.at, hc, if_pos rfl, hb]

theorem coefficient_reverse {sh S idx k : List Nat} (h : IsCoefficient true sh S idx k) : IsCoefficient false sh.reverse S.reverse idx.reverse k.reverse := by
  obtain ⟨dims, rest, part, other, hS, hidx, hro, hd, hp, hk⟩ := h
  simp only [if_true] at hS hidx
  refine ⟨dims.reverse, rest.reverse, part.reverse, other.reverse, ?_, ?_, ?_, ?_, ?_, ?_⟩
  · rw [hS]; simp
  · rw [hidx]; simp
  · simpa using hro
  · exact List.rel_reverse hd
  · simpa using hp
  · rw [hk, ← List.map_reverse]
    congr 1
    clear hd hk hidx hS
    induction sh generalizing part with
    | nil => simp
    | cons d sh ih =>
      cases part with
      | nil => simp at hp
      | cons i part =>
        have hp : sh.length = part.length := by simpa using hp
        simp only [List.reverse_cons, List.zip_cons_cons]
        rw [List.zip_append (by simpa using hp), ← ih part hp]
        rfl

theorem coefficient_self {S idx : List Nat} (h : InBounds S idx) : IsCoefficient false S S idx idx := by
  refine ⟨S, [], idx, [], by simp, by simp, rfl, ?_, h.length_eq.symm, ?_⟩
  · exact List.forall₂_same.2 fun _ _ => .inr rfl
  · induction h with
    | nil => rfl
    | cons h _ ih =>
      rw [List.zip_cons_cons, List.map_cons, ← ih]
      split
      · rename_i h1; simp only at h1; congr 1; omega
      · rfl

theorem coefficient_data {r : Bool} {sh S idx k : List Nat} (h : IsCoefficient r sh S idx k) : IsCoefficient false sh sh k k := by
  obtain ⟨dims, rest, part, other, -, -, -, -, hp, hk⟩ := h
  refine ⟨sh, [], k, [], by simp, by simp, rfl, List.forall₂_same.2 fun _ _ => .inr rfl, ?_, ?_⟩
  · rw [hk]; simp [hp]
  · rw [hk]
    clear hk
    induction sh generalizing part with
    | nil => rfl
    | cons d sh ih =>
      cases part with
      | nil => simp at hp
      | cons i part =>
        rw [List.zip_cons_cons, List.map_cons, List.zip_cons_cons, List.map_cons, ← ih part (by simpa using hp)]
        by_cases h1 : d = 1 <;> simp [h1]

theorem inBounds_reverse {S idx : List Nat} (h : InBounds S idx) : InBounds S.reverse idx.reverse := List.rel_reverse h

theorem evaluates_iff (F : Functions K) {ts : List Tok} {e : Ast} (h : Parses ts e) (look : Nm → Option (Val K)) (S idx : List Nat) (r : Option K) :
    Evaluates F ts look S idx r ↔ r = evalAt F look S idx e := by
  constructor
  · rintro ⟨e', h', hr⟩
    rw [parses_unique h h', hr]
  · rintro rfl
    exact ⟨e, h, rfl⟩

/-! ### Property C99 -/

/-- For every expression, the operator multiplies the input by the value of the expression for the datum that corresponds to the element, whatever the precedence of the operations of the expression, and `get_data` returns these values. -/
theorem C99_diagonal_partial (F : Functions K) (d : Diagonal K) (e : Ast) (hp : Parses d.text e) (S idx k : List Nat) (input output : List Nat → K)
    (hidx : InBounds S idx) (hk : IsCoefficient d.rightward d.shape S idx k) (env : Nm → Option K) (hvar : env d.var = some (d.data k))
    (hglobals : ∀ n ∈ e.vars, n ≠ d.var → ∃ c, d.globals n = some (.scalar c) ∧ env n = some c)
    (hlocals : ∀ n ∈ e.vars, n ≠ .self ∧ n ≠ .input ∧ n ≠ .output) :
    (∀ r, d.direct F S input output idx r ↔ r = (value F env e).map fun v => v * input idx) ∧ ∀ r, d.getData F k r ↔ r = value F env e := by
  have htext := parses_times hp .input
  have hgoal : ∀ (i o : Val K) (S' idx' : List Nat) (x : K), Val.at S' idx' i = some x →
      Val.at S' idx' (if d.rightward then (Val.array d.shape d.data).transpose else .array d.shape d.data) = some (d.data k) →
      evalAt F (d.look i o) S' idx' (.mul e (.name .input)) = (value F env e).map fun v => v * x := by
    intro i o S' idx' x hi hd
    rw [evalAt, evalAt_value F _ S' idx' env e, evalAt]
    · show (value F env e).bind (fun v => ((Val.at S' idx' i)).map fun y => v * y) = _
      rw [hi]
      cases value F env e <;> rfl
    · intro n hn
      have h1 := hlocals n hn
      have hl : d.look i o n = d.dict n := by
        cases n <;> first | rfl | exact absurd rfl h1.1 | exact absurd rfl h1.2.1 | exact absurd rfl h1.2.2
      rw [hl, Diagonal.dict]
      by_cases hv : n = d.var
      · rw [if_pos hv, hv, hvar, Option.bind_some, hd]
      · obtain ⟨c, hc, hc'⟩ := hglobals n hn hv
        rw [if_neg hv, hc, hc']
        rfl
  constructor
  · intro r
    simp only [Diagonal.direct]
    split
    · rename_i hr
      rw [evaluates_iff F htext, hgoal _ _ _ _ (input idx)]
      · have := at_leftward S.reverse S.reverse idx.reverse idx.reverse (fun i => input i.reverse) (coefficient_self (inBounds_reverse hidx))
        rw [Val.transpose, this, List.reverse_reverse]
      · rw [hr] at hk
        have := at_leftward _ _ _ _ (fun i => d.data i.reverse) (coefficient_reverse hk)
        rw [hr, if_pos rfl, Val.transpose, this, List.reverse_reverse]
    · rename_i hr
      rw [evaluates_iff F htext, hgoal _ _ _ _ (input idx)]
      · exact at_leftward S S idx idx input (coefficient_self hidx)
      · rw [Bool.not_eq_true] at hr
        rw [hr] at hk
        rw [hr, if_neg (by simp)]
        exact at_leftward _ _ _ _ _ hk
  · intro r
    rw [Diagonal.getData, evaluates_iff F hp, evalAt_value F _ _ _ env e]
    intro n hn
    by_cases hv : n = d.var
    · rw [if_pos hv, hv, hvar, Option.bind_some]
      exact at_leftward _ _ _ _ _ (coefficient_data hk)
    · obtain ⟨c, hc, hc'⟩ := hglobals n hn hv
      rw [if_neg hv, hc, hc']
      rfl

theorem coefficient_slice {r : Bool} {n len start i : Nat} {s S idx k : List Nat} (hr : r = false → s.length = S.length) (hi : i < len) (hlen : start + len ≤ n)
    (hidx : idx.length = S.length) (h : IsCoefficient r (n :: s) (n :: S) ((start + i) :: idx) k) :
    ∃ k', k = (start + i) :: k' ∧ IsCoefficient r (len :: s) (len :: S) (i :: idx) (i :: k') := by
  obtain ⟨dims, rest, part, other, h1, h2, h3, h4, h5, h6⟩ := h
  have hd : dims.length = s.length + 1 := by rw [← h4.length_eq]; rfl
  have hp : part.length = s.length + 1 := by rw [← h5]; rfl
  match dims, part with
  | [], _ => simp at hd
  | _, [] => simp at hp
  | d :: dims, p :: part =>
    have hrest : r = false → rest = [] ∧ other = [] := by
      intro hf
      have hl := congrArg List.length h1
      simp only [hf, Bool.false_eq_true, if_false, List.length_append, List.length_cons] at hl hd
      have := hr hf
      have h0 : rest.length = 0 := by omega
      exact ⟨List.length_eq_zero_iff.mp h0, List.length_eq_zero_iff.mp (h3 ▸ h0)⟩
    have key : n :: S = (d :: dims) ++ rest ∧ (start + i) :: idx = (p :: part) ++ other := by
      cases r with
      | true => exact ⟨h1, h2⟩
      | false => obtain ⟨e1, e2⟩ := hrest rfl; subst e1; subst e2; simpa using And.intro h1 h2
    obtain ⟨e1, e2⟩ := key
    simp only [List.cons_append, List.cons.injEq] at e1 e2
    obtain ⟨rfl, e1⟩ := e1
    obtain ⟨rfl, e2⟩ := e2
    rw [List.forall₂_cons] at h4
    refine ⟨(s.zip part).map fun p => if p.1 = 1 then 0 else p.2, ?_, len :: dims, rest, i :: part, other, ?_, ?_, h3, ?_, h5, ?_⟩
    · rw [h6]
      simp only [List.zip_cons_cons, List.map_cons, List.cons.injEq, and_true]
      split
      · omega
      · rfl
    · cases r with
      | true => simp [e1]
      | false => obtain ⟨a, b⟩ := hrest rfl; subst a; subst b; simp [e1]
    · cases r with
      | true => simp [e2]
      | false => obtain ⟨a, b⟩ := hrest rfl; subst a; subst b; simp [e2]
    · exact .cons (.inr rfl) h4.2
    · simp only [List.zip_cons_cons, List.map_cons, List.cons.injEq, and_true]
      split
      · omega
      · rfl

/-- When the operator is distributed over the blocks of a partition of the first axis, and its other variables are scalars, the operator of each block multiplies the slice
of the input like the whole operator: missing are the arrays among the other variables, see `C99_sliced_fails`. -/
theorem C99_blocks_partial (F : Functions K) (d : Diagonal K) (e : Ast) (hp : Parses d.text e) (n : Nat) (s S idx k : List Nat) (start len i : Nat)
    (hshape : d.shape = n :: s) (hr : d.rightward = false → s.length = S.length) (hi : i < len) (hlen : start + len ≤ n) (hidx : InBounds S idx)
    (input output input' output' : List Nat → K) (hinput : input' (i :: idx) = input ((start + i) :: idx))
    (hk : IsCoefficient d.rightward d.shape (n :: S) ((start + i) :: idx) k)
    (hglobals : ∀ n ∈ e.vars, n ≠ d.var → ∃ c, d.globals n = some (.scalar c))
    (hlocals : ∀ n ∈ e.vars, n ≠ .self ∧ n ≠ .input ∧ n ≠ .output) (r : Option K) :
    (d.slice start len).direct F (len :: S) input' output' (i :: idx) r ↔ d.direct F (n :: S) input output ((start + i) :: idx) r := by
  rw [hshape] at hk
  obtain ⟨k', rfl, hk'⟩ := coefficient_slice hr hi hlen hidx.length_eq hk
  let env : Nm → Option K := fun v => if v = d.var then some (d.data ((start + i) :: k')) else
    match d.globals v with | some (.scalar c) => some c | _ => none
  have hg : ∀ v ∈ e.vars, v ≠ d.var → ∃ c, d.globals v = some (.scalar c) ∧ env v = some c := by
    intro v hv hne
    obtain ⟨c, hc⟩ := hglobals v hv hne
    exact ⟨c, hc, by simp [env, hne, hc]⟩
  have h1 := (C99_diagonal_partial F d e hp (n :: S) ((start + i) :: idx) ((start + i) :: k') input output (.cons (by omega) hidx) (by rw [hshape]; exact hk) env
    (by simp [env]) hg hlocals).1 r
  have h2 := (C99_diagonal_partial F (d.slice start len) e hp (len :: S) (i :: idx) (i :: k') input' output' (.cons hi hidx)
    (by simp only [Diagonal.slice, hshape]; exact hk') env (by simp [env, Diagonal.slice]) hg hlocals).1 r
  rw [h1, h2, hinput]

/-- For every expression of the input and of scalars, the operator assigns its values to the output or combines them with the output. -/
theorem C99_numexpr_partial (F : Functions K) (text : List Tok) (e : Ast) (hp : Parses text e) (globals : Nm → Option (Val K)) (o : Operation) (S idx : List Nat)
    (input output : List Nat → K) (hidx : InBounds S idx) (env : Nm → Option K) (hinput : env .input = some (input idx))
    (hnames : ∀ n ∈ e.vars, n = .input ∨ ∃ u c, n = .user u ∧ globals n = some (.scalar c) ∧ env n = some c) (r : Option K) :
    numexprDirect F text globals o S input output idx r ↔ r = (value F env e).map fun v => o.apply (output idx) v := by
  have hat : ∀ get : List Nat → K, (Val.array S get).at S idx = some (get idx) := fun get => at_leftward S S idx idx get (coefficient_self hidx)
  simp only [numexprDirect]
  split
  · rename_i ho
    rw [evaluates_iff F hp, evalAt_value F _ _ _ env e, ho]
    · cases value F env e <;> rfl
    · intro n hn
      rcases hnames n hn with rfl | ⟨u, c, rfl, hc, hc'⟩
      · rw [hinput]; exact hat input
      · show (globals (.user u)).bind _ = _
        rw [hc, hc']; rfl
  · rename_i ho
    rw [evaluates_iff F (parses_operation hp .output o ho)]
    have hv := evalAt_value F (numexprLook globals o (.array S input) (.array S output)) S idx env e (by
      intro n hn
      rcases hnames n hn with rfl | ⟨u, c, rfl, hc, hc'⟩
      · rw [hinput]; exact hat input
      · show (globals (.user u)).bind _ = _
        rw [hc, hc']; rfl)
    have hout : (numexprLook globals o (.array S input) (.array S output) .output).bind (Val.at S idx) = some (output idx) := hat output
    cases o with
    | assignment => exact absurd rfl ho
    | iadd => simp only [evalAt, hv, hout, Option.bind_some, Operation.apply]
    | isub => simp only [evalAt, hv, hout, Option.bind_some, Operation.apply]
    | imul => simp only [evalAt, hv, hout, Option.bind_some, Operation.apply]
    | itruediv => simp only [evalAt, hv, hout, Option.bind_some, Operation.apply]

/-! ### Examples and counterexamples -/

def noFunctions : Functions ℚ := { pow := fun x _ => x, fn := fun _ => none }

/-- `data + 2`, which is evaluated before the multiplication by the input; the data (10, 20) is broadcast rightward along the columns. -/
def columns : Diagonal ℚ where
  shape := [2]
  data := fun idx => if idx = [0] then 10 else 20
  text := [.name (.user 0), .plus, .name (.user 1)]
  globals := fun n => if n = .user 1 then some (.scalar 2) else none
  var := .user 0
  rightward := true

example (input output : List Nat → ℚ) : columns.direct noFunctions [2, 3] input output [1, 2] (some (22 * input [1, 2])) := by
  have h := C99_diagonal_partial noFunctions columns (.add (.name (.user 0)) (.name (.user 1))) ⟨20, rfl⟩ [2, 3] [1, 2] [1] input output
    (.cons (by decide) (.cons (by decide) .nil)) ⟨[2], [3], [1], [2], rfl, rfl, rfl, .cons (.inr rfl) .nil, rfl, rfl⟩
    (fun n => if n = .user 0 then some 20 else if n = .user 1 then some 2 else none) (by decide)
    (by intro n hn hv; rcases List.mem_cons.1 hn with rfl | hn
        · exact absurd rfl hv
        · rcases List.mem_cons.1 hn with rfl | hn
          · exact ⟨2, rfl, rfl⟩
          · cases hn)
    (by intro n hn; rcases List.mem_cons.1 hn with rfl | hn
        · simp
        · rcases List.mem_cons.1 hn with rfl | hn
          · simp
          · cases hn)
  refine (h.1 _).2 ?_
  simp [value]
  norm_num

/-- `output - (input - c)` -/
example : numexprDirect noFunctions [.name .input, .minus, .name (.user 0)] (fun n => if n = .user 0 then some (.scalar 3) else none) .isub [1] (fun _ => 5) (fun _ => 7) [0] (some 5) := by
  refine (C99_numexpr_partial noFunctions _ (.sub (.name .input) (.name (.user 0))) ⟨20, rfl⟩ _ .isub [1] [0] _ _ (.cons (by decide) .nil)
    (fun n => if n = .input then some 5 else if n = .user 0 then some 3 else none) rfl ?_ _).2 ?_
  · intro n hn
    rcases List.mem_cons.1 hn with rfl | hn
    · exact .inl rfl
    · rcases List.mem_cons.1 hn with rfl | hn
      · exact .inr ⟨0, 3, rfl, rfl, rfl⟩
      · cases hn
  · simp [value, Operation.apply]
    norm_num

/-- The name of the variable is free, but the local variables of `direct` hide a variable called input: `DiagonalNumexprOperator([10], 'input+1', var='input')` multiplies the input 2 by 3 and not by 11, the value that get_data returns. In the same way NumexprOperator does not find the variables of global_dict called expr, operation or op, the last one only if there is a reduction. -/
def hidden : Diagonal ℚ where
  shape := [1]
  data := fun _ => 10
  text := [.name .input, .plus, .num 1]
  globals := fun _ => none
  var := .input
  rightward := false

theorem C99_names_fails :
    hidden.direct noFunctions [1] (fun _ => 2) (fun _ => 0) [0] (some 6) ∧ hidden.getData noFunctions [0] (some 11) ∧
    numexprDirect noFunctions [.name .input, .plus, .name .op] (fun n => if n = .op then some (.scalar 3) else none) .assignment [1] (fun _ => 5) (fun _ => 0) [0] (some 8) ∧
    numexprDirect noFunctions [.name .input, .plus, .name .op] (fun n => if n = .op then some (.scalar 3) else none) .iadd [1] (fun _ => 5) (fun _ => 0) [0] none ∧
    numexprDirect noFunctions [.name .input, .plus, .name .expr] (fun n => if n = .expr then some (.scalar 3) else none) .assignment [1] (fun _ => 5) (fun _ => 0) [0] none := by
  refine ⟨⟨.mul (.add (.name .input) (.num 1)) (.name .input), ⟨20, rfl⟩, ?_⟩, ⟨.add (.name .input) (.num 1), ⟨20, rfl⟩, ?_⟩, ⟨.add (.name .input) (.name .op), ⟨20, rfl⟩, ?_⟩,
    ⟨.add (.name .output) (.add (.name .input) (.name .op)), ⟨20, rfl⟩, ?_⟩, ⟨.add (.name .input) (.name .expr), ⟨20, rfl⟩, ?_⟩⟩
  · decide +kernel
  · decide +kernel
  · decide +kernel
  · decide +kernel
  · decide +kernel

/-- An array of global_dict: `data + b` where data is zero and b is [[1, 2], [3, 4]]. -/
def globalArray (rightward : Bool) : Diagonal ℚ where
  shape := [2, 2]
  data := fun _ => 0
  text := [.name (.user 0), .plus, .name (.user 1)]
  globals := fun n => if n = .user 1 then some (.array [2, 2] fun idx => if idx = [0, 0] then 1 else if idx = [0, 1] then 2 else if idx = [1, 0] then 3 else 4) else none
  var := .user 0
  rightward := rightward

/-- The arrays of global_dict are not transposed with the data when the broadcast is rightward: the element (0, 1) of the input is multiplied by b[1, 0], and not by b[0, 1] as in get_data and as when the broadcast is leftward. -/
theorem C99_transposed_fails :
    (globalArray true).direct noFunctions [2, 2] (fun _ => 1) (fun _ => 0) [0, 1] (some 3) ∧ (globalArray true).getData noFunctions [0, 1] (some 2) ∧
    (globalArray false).direct noFunctions [2, 2] (fun _ => 1) (fun _ => 0) [0, 1] (some 2) := by
  refine ⟨⟨.mul (.add (.name (.user 0)) (.name (.user 1))) (.name .input), ⟨20, rfl⟩, ?_⟩, ⟨.add (.name (.user 0)) (.name (.user 1)), ⟨20, rfl⟩, ?_⟩,
    ⟨.mul (.add (.name (.user 0)) (.name (.user 1))) (.name .input), ⟨20, rfl⟩, ?_⟩⟩
  · decide +kernel
  · decide +kernel
  · decide +kernel

/-- Nor are they sliced with the data when the operator is distributed over the blocks of a partition: the operator of the second block raises an exception. -/
theorem C99_sliced_fails :
    (globalArray false).direct noFunctions [2, 2] (fun _ => 1) (fun _ => 0) [1, 0] (some 3) ∧
    ((globalArray false).slice 1 1).direct noFunctions [1, 2] (fun _ => 1) (fun _ => 0) [0, 0] none := by
  refine ⟨⟨.mul (.add (.name (.user 0)) (.name (.user 1))) (.name .input), ⟨20, rfl⟩, ?_⟩, ⟨.mul (.add (.name (.user 0)) (.name (.user 1))) (.name .input), ⟨20, rfl⟩, ?_⟩⟩
  · decide +kernel
  · decide +kernel

/-- Data [5, 7], with the expression data + b. -/
def sum7 : Diagonal ℚ :=
  ⟨[2], fun i => if i = [1] then 7 else 5, [.name (.user 0), .plus, .name (.user 1)], fun n => if n = .user 1 then some (.scalar 3) else none, .user 0, true⟩

example : (sum7.slice 1 1).direct noFunctions [1, 2] (fun _ => 2) (fun _ => 0) [0, 1] (some 20) := by
  refine (C99_blocks_partial noFunctions _ (.add (.name (.user 0)) (.name (.user 1))) ⟨20, rfl⟩ 2 [] [2] [1] [1] 1 1 0 rfl (by simp [sum7]) (by decide) (by decide)
    (.cons (by decide) .nil) (fun _ => 2) (fun _ => 0) _ _ rfl ⟨[2], [2], [1], [1], rfl, rfl, rfl, .cons (.inr rfl) .nil, rfl, rfl⟩ ?_ ?_ _).mpr
    ⟨.mul (.add (.name (.user 0)) (.name (.user 1))) (.name .input), ⟨20, rfl⟩, ?_⟩
  · simp [Ast.vars, sum7]
  · simp [Ast.vars]
  · decide +kernel

end Verif.Numexpr
