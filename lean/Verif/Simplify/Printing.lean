import Mathlib.Algebra.Ring.Int.Defs

/-!
Model of the texts of expressions of operators: `CompositeOperator.__str__` (src/pyoperators/core.py:1770-1802) and `CompositionOperator.__str__`
(src/pyoperators/core.py:2787-2821), and property C110.

A text is a list of tokens. The texts of the operators that are not composite are of three kinds: a name without spaces, `name(..., z=1)`, and `...**k`,
as in tests/test_str.py; names with a shape, which contain a space, and block operators are not modelled.
-/

namespace Verif.Printing

/-- The parts of a text; `comma` stands for the other arguments ", z=1" of a function, `hole` for "...", `pow k` for "**k". -/
inductive Tok where
  | name (k : Nat)
  | hole
  | comma
  | pow (k : Nat)
  | times
  | plus
  | cross
  | lpar
  | rpar
  deriving DecidableEq, Repr

/-- The operators. -/
inductive Op where
  /-- an operator whose text is a name -/
  | atom (k : Nat) (linear : Bool)
  /-- a nonlinear operator whose text is `name(..., z=1)` -/
  | call (k : Nat)
  /-- a nonlinear operator whose text is `...**k` -/
  | power (k : Nat)
  | sum (ops : List Op)
  | prod (ops : List Op)
  | comp (ops : List Op)

/-- The flag linear: that of the operands for sums and compositions (src/pyoperators/core.py:2023-2034 and 2738-2750), false for element-wise
products (src/pyoperators/core.py:2055-2066). -/
def Op.linear : Op → Bool
  | .atom _ l => l
  | .call _ => false
  | .power _ => false
  | .sum ops => all ops
  | .prod _ => false
  | .comp ops => all ops
where
  all : List Op → Bool
    | [] => true
    | o :: os => o.linear && all os

/-- `isinstance(o, AdditionOperator)`. -/
def Op.isSum : Op → Bool
  | .sum _ => true
  | _ => false

/-- `sep.join(texts)`. -/
def join (sep : Tok) : List (List Tok) → List Tok
  | [] => []
  | [t] => t
  | t :: ts => t ++ sep :: join sep ts

/-- Parentheses around a text. -/
def paren (t : List Tok) : List Tok := Tok.lpar :: t ++ [Tok.rpar]

/-- `' ' in s`: the infix operators and the other arguments of a function are written with spaces. -/
def hasSpace (t : List Tok) : Bool := t.any fun c => c == .times || c == .plus || c == .cross || c == .comma

/-- `'...,' in s or ', ...' in s`; the other arguments come after the hole. -/
def isProtected : List Tok → Bool
  | .hole :: .comma :: _ => true
  | _ :: ts => isProtected ts
  | [] => false

/-- `s_op.replace('...', s)`. -/
def replace (s : List Tok) (t : List Tok) : List Tok := t.flatMap fun c => if c = .hole then s else [c]

/-- A nonlinear operator that is applied to s: src/pyoperators/core.py:2806-2820. -/
def applyText (t s : List Tok) : List Tok :=
  if t.contains .hole = false then t ++ paren s
  else if isProtected t = false && hasSpace s then replace (paren s) t
  else replace s t

/-- `CompositionOperator.__str__`: src/pyoperators/core.py:2787-2821, from the flags linear and the texts of the operands. The method goes through
the groups of consecutive linear or nonlinear operands from the right; here, the text of the operands on the right of the first group is that of a
recursive call. -/
def compText : List (Bool × List Tok) → List Tok
  | [] => []
  | (true, t) :: rest =>
    let group := join .times (t :: (rest.takeWhile fun p => p.1).map Prod.snd)
    let right := rest.dropWhile fun p => p.1
    if right.isEmpty then group
    else if (rest.takeWhile fun p => p.1).length + 1 > 1 || hasSpace group then paren group ++ paren (compText right)
    else group ++ paren (compText right)
  | (false, t) :: rest => if rest.isEmpty then t else applyText t (compText rest)
termination_by l => l.length
decreasing_by
  all_goals
    simp only [List.length_cons]
    first
      | (have := (List.dropWhile_sublist (l := rest) fun p => p.1).length_le; omega)
      | omega

mutual
/-- `str(op)`; for sums and products, `CompositeOperator.__str__`: src/pyoperators/core.py:1770-1802. -/
def text : Op → List Tok
  | .atom k _ => [.name k]
  | .call k => [.name k, .lpar, .hole, .comma, .rpar]
  | .power k => [.hole, .pow k]
  | .sum ops => join .plus (operandTexts ops)
  | .prod ops => join .cross (operandTexts ops)
  | .comp ops => compText (flaggedTexts ops)
/-- The texts of the operands of a sum or a product, with parentheses around sums: src/pyoperators/core.py:1780-1786. -/
def operandTexts : List Op → List (List Tok)
  | [] => []
  | o :: os => (if o.isSum then paren (text o) else text o) :: operandTexts os
/-- The flags and the texts of the operands of a composition. -/
def flaggedTexts : List Op → List (Bool × List Tok)
  | [] => []
  | o :: os => (o.linear, text o) :: flaggedTexts os
end

/-! ### The meaning of operators and of texts -/

/-- What the names and the powers stand for. -/
structure Env (X : Type) where
  fn : Nat → X → X
  power : Nat → X → X

variable {X : Type} [Add X] [Mul X]

mutual
/-- The function that an operator computes. -/
def eval (env : Env X) : Op → X → X
  | .atom k _ => env.fn k
  | .call k => env.fn k
  | .power k => env.power k
  | .sum ops => evalSum env ops
  | .prod ops => evalProd env ops
  | .comp ops => evalComp env ops
def evalSum (env : Env X) : List Op → X → X
  | [] => id
  | [o] => eval env o
  | o :: os => fun x => eval env o x + evalSum env os x
def evalProd (env : Env X) : List Op → X → X
  | [] => id
  | [o] => eval env o
  | o :: os => fun x => eval env o x * evalProd env os x
def evalComp (env : Env X) : List Op → X → X
  | [] => id
  | o :: os => fun x => eval env o (evalComp env os x)
end

/-- The levels of a formula, from the one that binds least: sums, element-wise products, compositions, powers, names and parentheses. -/
inductive Level where
  | sum | prod | comp | post | app
  deriving DecidableEq, Repr

/-- The exponent of a power: a**b**c is a**(b**c). -/
def exponent : List Tok → Option Nat × List Tok
  | .pow k :: r =>
    match exponent r with
    | (some e, r') => (some (k ^ e), r')
    | (none, r') => (some k, r')
  | r => (none, r)

/-- The usual reading of a formula: the function that the longest formula at the beginning of a text stands for, and the text after it. The hole is
the argument of the whole formula. The first number limits the depth of the recursion. -/
def read (env : Env X) : Nat → Level → List Tok → Option ((X → X) × List Tok)
  | 0, _, _ => none
  | n + 1, .sum, ts =>
    match read env n .prod ts with
    | some (f, .plus :: r) =>
      match read env n .sum r with
      | some (g, r') => some (fun x => f x + g x, r')
      | none => none
    | res => res
  | n + 1, .prod, ts =>
    match read env n .comp ts with
    | some (f, .cross :: r) =>
      match read env n .prod r with
      | some (g, r') => some (fun x => f x * g x, r')
      | none => none
    | res => res
  | n + 1, .comp, ts =>
    match read env n .post ts with
    | some (f, .times :: r) =>
      match read env n .comp r with
      | some (g, r') => some (fun x => f (g x), r')
      | none => none
    | res => res
  | n + 1, .post, ts =>
    match read env n .app ts with
    | some (f, r) =>
      match exponent r with
      | (some k, r') => some (fun x => env.power k (f x), r')
      | (none, r') => some (f, r')
    | none => none
  | _ + 1, .app, .hole :: r => some (id, r)
  | n + 1, .app, .name k :: .lpar :: r =>
    match read env n .sum r with
    | some (g, .rpar :: r') => some (fun x => env.fn k (g x), r')
    | some (g, .comma :: .rpar :: r') => some (fun x => env.fn k (g x), r')
    | _ => none
  | _ + 1, .app, .name k :: r => some (env.fn k, r)
  | n + 1, .app, .lpar :: r =>
    match read env n .sum r with
    | some (f, .rpar :: .lpar :: r') =>
      match read env n .sum r' with
      | some (g, .rpar :: r'') => some (fun x => f (g x), r'')
      | _ => none
    | some (f, .rpar :: r') => some (f, r')
    | _ => none
  | _ + 1, .app, _ => none

/-- A text stands for a function. -/
def Means (env : Env X) (t : List Tok) (f : X → X) : Prop := ∃ N, ∀ n, N ≤ n → read env n .sum t = some (f, [])

/-- A text does not stand for two functions. -/
theorem Means.unique {env : Env X} {t : List Tok} {f g : X → X} (hf : Means env t f) (hg : Means env t g) : f = g := by
  obtain ⟨a, ha⟩ := hf
  obtain ⟨b, hb⟩ := hg
  have h1 := ha (max a b) (Nat.le_max_left _ _)
  have h2 := hb (max a b) (Nat.le_max_right _ _)
  rw [h1] at h2
  injection h2 with h
  exact (Prod.mk.inj h).1

/-! ### The texts are read as the operators -/

/-- Tokens that would continue a formula of a level. -/
def continues : Level → Tok → Bool
  | _, .lpar => true
  | .app, _ => false
  | _, .pow _ => true
  | .post, _ => false
  | _, .times => true
  | .comp, _ => false
  | _, .cross => true
  | .prod, _ => false
  | .sum, .plus => true
  | .sum, _ => false

/-- A text that can follow a formula. -/
def Follow (l : Level) (rest : List Tok) : Prop := ∀ c r, rest = c :: r → continues l c = false

def Good (env : Env X) (l : Level) (t : List Tok) (f : X → X) : Prop :=
  ∃ N, ∀ n, N ≤ n → ∀ rest, Follow l rest → read env n l (t ++ rest) = some (f, rest)

theorem Follow.nil (l : Level) : Follow l [] := by intro c r h; cases h

theorem Follow.cons {l : Level} {c : Tok} (h : continues l c = false) (r : List Tok) : Follow l (c :: r) := by
  intro c' r' e
  cases e
  exact h

theorem Follow.weaken {l l' : Level} {rest : List Tok} (h : Follow l rest) (hw : ∀ c, continues l c = false → continues l' c = false) :
    Follow l' rest := fun c r e => hw c (h c r e)

variable {env : Env X}

theorem Good.means {t : List Tok} {f : X → X} (h : Good env .sum t f) : Means env t f := by
  obtain ⟨N, hN⟩ := h
  exact ⟨N, fun n hn => by simpa using hN n hn [] (Follow.nil _)⟩

theorem exponent_follow {rest : List Tok} (h : Follow .post rest) : exponent rest = (none, rest) := by
  cases rest with
  | nil => rfl
  | cons c r =>
    have := h c r rfl
    cases c <;> first | rfl | (simp [continues] at this)

theorem Good.post {t : List Tok} {f : X → X} (h : Good env .app t f) : Good env .post t f := by
  obtain ⟨N, hN⟩ := h
  refine ⟨N + 1, fun n hn rest hr => ?_⟩
  obtain ⟨m, rfl⟩ : ∃ m, n = m + 1 := ⟨n - 1, by omega⟩
  have := hN m (by omega) rest (hr.weaken (by intro c; cases c <;> simp [continues]))
  simp only [read, this, exponent_follow hr]

theorem Good.comp {t : List Tok} {f : X → X} (h : Good env .post t f) : Good env .comp t f := by
  obtain ⟨N, hN⟩ := h
  refine ⟨N + 1, fun n hn rest hr => ?_⟩
  obtain ⟨m, rfl⟩ : ∃ m, n = m + 1 := ⟨n - 1, by omega⟩
  have := hN m (by omega) rest (hr.weaken (by intro c; cases c <;> simp [continues]))
  simp only [read, this]
  split
  · rename_i heq
    injection heq with heq
    have := hr _ _ (Prod.mk.inj heq).2
    simp [continues] at this
  · rfl

theorem Good.prod {t : List Tok} {f : X → X} (h : Good env .comp t f) : Good env .prod t f := by
  obtain ⟨N, hN⟩ := h
  refine ⟨N + 1, fun n hn rest hr => ?_⟩
  obtain ⟨m, rfl⟩ : ∃ m, n = m + 1 := ⟨n - 1, by omega⟩
  have := hN m (by omega) rest (hr.weaken (by intro c; cases c <;> simp [continues]))
  simp only [read, this]
  split
  · rename_i heq
    injection heq with heq
    have := hr _ _ (Prod.mk.inj heq).2
    simp [continues] at this
  · rfl

theorem Good.sum {t : List Tok} {f : X → X} (h : Good env .prod t f) : Good env .sum t f := by
  obtain ⟨N, hN⟩ := h
  refine ⟨N + 1, fun n hn rest hr => ?_⟩
  obtain ⟨m, rfl⟩ : ∃ m, n = m + 1 := ⟨n - 1, by omega⟩
  have := hN m (by omega) rest (hr.weaken (by intro c; cases c <;> simp [continues]))
  simp only [read, this]
  split
  · rename_i heq
    injection heq with heq
    have := hr _ _ (Prod.mk.inj heq).2
    simp [continues] at this
  · rfl

theorem Good.addition {t u : List Tok} {f g : X → X} (h : Good env .prod t f) (k : Good env .sum u g) :
    Good env .sum (t ++ .plus :: u) (fun x => f x + g x) := by
  obtain ⟨N, hN⟩ := h
  obtain ⟨M, hM⟩ := k
  refine ⟨max N M + 1, fun n hn rest hr => ?_⟩
  obtain ⟨m, rfl⟩ : ∃ m, n = m + 1 := ⟨n - 1, by omega⟩
  have h1 := hN m (by omega) (.plus :: (u ++ rest)) (Follow.cons rfl _)
  have h2 := hM m (by omega) rest hr
  simp only [read, List.append_assoc, List.cons_append, h1, h2]

theorem Good.product {t u : List Tok} {f g : X → X} (h : Good env .comp t f) (k : Good env .prod u g) :
    Good env .prod (t ++ .cross :: u) (fun x => f x * g x) := by
  obtain ⟨N, hN⟩ := h
  obtain ⟨M, hM⟩ := k
  refine ⟨max N M + 1, fun n hn rest hr => ?_⟩
  obtain ⟨m, rfl⟩ : ∃ m, n = m + 1 := ⟨n - 1, by omega⟩
  have h1 := hN m (by omega) (.cross :: (u ++ rest)) (Follow.cons rfl _)
  have h2 := hM m (by omega) rest hr
  simp only [read, List.append_assoc, List.cons_append, h1, h2]

theorem Good.composition {t u : List Tok} {f g : X → X} (h : Good env .post t f) (k : Good env .comp u g) :
    Good env .comp (t ++ .times :: u) (fun x => f (g x)) := by
  obtain ⟨N, hN⟩ := h
  obtain ⟨M, hM⟩ := k
  refine ⟨max N M + 1, fun n hn rest hr => ?_⟩
  obtain ⟨m, rfl⟩ : ∃ m, n = m + 1 := ⟨n - 1, by omega⟩
  have h1 := hN m (by omega) (.times :: (u ++ rest)) (Follow.cons rfl _)
  have h2 := hM m (by omega) rest hr
  simp only [read, List.append_assoc, List.cons_append, h1, h2]

theorem Good.pow {t : List Tok} {f : X → X} (h : Good env .app t f) (k : Nat) : Good env .post (t ++ [.pow k]) (fun x => env.power k (f x)) := by
  obtain ⟨N, hN⟩ := h
  refine ⟨N + 1, fun n hn rest hr => ?_⟩
  obtain ⟨m, rfl⟩ : ∃ m, n = m + 1 := ⟨n - 1, by omega⟩
  have h1 := hN m (by omega) (.pow k :: rest) (Follow.cons rfl _)
  simp only [read, List.append_assoc, List.cons_append, List.nil_append, h1, exponent, exponent_follow hr]

theorem Good.name (k : Nat) : Good env .app [.name k] (env.fn k) := by
  refine ⟨1, fun n hn rest hr => ?_⟩
  obtain ⟨m, rfl⟩ : ∃ m, n = m + 1 := ⟨n - 1, by omega⟩
  cases rest with
  | nil => simp [read]
  | cons c r =>
    have := hr c r rfl
    cases c <;> first | (simp [continues] at this; done) | simp [read]

theorem Good.hole : Good env .app [.hole] id := by
  refine ⟨1, fun n hn rest hr => ?_⟩
  obtain ⟨m, rfl⟩ : ∃ m, n = m + 1 := ⟨n - 1, by omega⟩
  simp [read]

theorem Good.apply {t : List Tok} {f : X → X} (k : Nat) (h : Good env .sum t f) :
    Good env .app (.name k :: paren t) (fun x => env.fn k (f x)) := by
  obtain ⟨N, hN⟩ := h
  refine ⟨N + 1, fun n hn rest hr => ?_⟩
  obtain ⟨m, rfl⟩ : ∃ m, n = m + 1 := ⟨n - 1, by omega⟩
  have h1 := hN m (by omega) (.rpar :: rest) (Follow.cons rfl _)
  simp only [paren, read, List.append_assoc, List.cons_append, List.nil_append, h1]

theorem Good.applyComma {t : List Tok} {f : X → X} (k : Nat) (h : Good env .sum t f) :
    Good env .app (.name k :: .lpar :: (t ++ [.comma, .rpar])) (fun x => env.fn k (f x)) := by
  obtain ⟨N, hN⟩ := h
  refine ⟨N + 1, fun n hn rest hr => ?_⟩
  obtain ⟨m, rfl⟩ : ∃ m, n = m + 1 := ⟨n - 1, by omega⟩
  have h1 := hN m (by omega) (.comma :: .rpar :: rest) (Follow.cons rfl _)
  simp only [read, List.append_assoc, List.cons_append, List.nil_append, h1]

theorem Good.paren {t : List Tok} {f : X → X} (h : Good env .sum t f) : Good env .app (paren t) f := by
  obtain ⟨N, hN⟩ := h
  refine ⟨N + 1, fun n hn rest hr => ?_⟩
  obtain ⟨m, rfl⟩ : ∃ m, n = m + 1 := ⟨n - 1, by omega⟩
  have h1 := hN m (by omega) (.rpar :: rest) (Follow.cons rfl _)
  simp only [Printing.paren, read, List.append_assoc, List.cons_append, List.nil_append, h1]
  cases rest with
  | nil => rfl
  | cons c r =>
    have := hr c r rfl
    cases c <;> first | (simp [continues] at this; done) | rfl

theorem Good.applyParen {t u : List Tok} {f g : X → X} (h : Good env .sum t f) (k : Good env .sum u g) :
    Good env .app (Printing.paren t ++ Printing.paren u) (fun x => f (g x)) := by
  obtain ⟨N, hN⟩ := h
  obtain ⟨M, hM⟩ := k
  refine ⟨max N M + 1, fun n hn rest hr => ?_⟩
  obtain ⟨m, rfl⟩ : ∃ m, n = m + 1 := ⟨n - 1, by omega⟩
  have h1 := hN m (by omega) (.rpar :: .lpar :: (u ++ .rpar :: rest)) (Follow.cons rfl _)
  have h2 := hM m (by omega) (.rpar :: rest) (Follow.cons rfl _)
  simp only [Printing.paren, read, List.append_assoc, List.cons_append, List.nil_append, h1, h2]

/-- `isinstance(o, CompositionOperator)`. -/
def Op.isComp : Op → Bool
  | .comp _ => true
  | _ => false

def Op.isProd : Op → Bool
  | .prod _ => true
  | _ => false

def Op.isPower : Op → Bool
  | .power _ => true
  | _ => false

/-- An operand of a composition, and the next one on its right: a sum is alone between nonlinear operators, products are not applied to the result of
another operator, and there are no powers of powers. -/
def Before : Op → Op → Prop
  | .atom _ true, p => p.linear = true → p.isSum = false
  | .atom _ false, _ => True
  | .call _, _ => True
  | .power _, p => p.isPower = false
  | .sum ops, p => (Op.sum ops).linear = true ∧ p.linear = false
  | .prod _, _ => False
  | .comp _, _ => False

/-- The operands of a composition are not compositions, and consecutive operands are as in `Before`. -/
def Chain : List Op → Prop
  | [] => True
  | [o] => o.isComp = false
  | o :: p :: rest => Before o p ∧ Chain (p :: rest)

mutual
/-- The operators to which the theorem applies: composite operators have several operands, which are not of the same class for products and
compositions, since the constructors merge them, and consecutive operands of compositions are as in `Before`. -/
def Readable : Op → Prop
  | .atom _ _ => True
  | .call _ => True
  | .power _ => True
  | .sum ops => 2 ≤ ops.length ∧ AllReadable ops
  | .prod ops => 2 ≤ ops.length ∧ AllReadable ops ∧ ∀ o ∈ ops, o.isProd = false
  | .comp ops => 2 ≤ ops.length ∧ AllReadable ops ∧ Chain ops
def AllReadable : List Op → Prop
  | [] => True
  | o :: os => Readable o ∧ AllReadable os
end

/-- The level of the text of an operator. -/
def Op.level : Op → Level
  | .atom _ _ => .app
  | .call _ => .app
  | .power _ => .post
  | .sum _ => .sum
  | .prod _ => .prod
  | .comp _ => .comp

def GoodOp (env : Env X) (o : Op) : Prop := Good env o.level (text o) (eval env o)

theorem Good.toSum {l : Level} {t : List Tok} {f : X → X} (h : Good env l t f) : Good env .sum t f := by
  cases l
  · exact h
  · exact h.sum
  · exact h.prod.sum
  · exact h.comp.prod.sum
  · exact h.post.comp.prod.sum

theorem GoodOp.toProd {o : Op} (h : GoodOp env o) (hs : o.isSum = false) : Good env .prod (text o) (eval env o) := by
  cases o <;> simp only [GoodOp, Op.level] at h
  · exact h.post.comp.prod
  · exact h.post.comp.prod
  · exact h.comp.prod
  · cases hs
  · exact h
  · exact h.prod

theorem GoodOp.toComp {o : Op} (h : GoodOp env o) (hs : o.isSum = false) (hp : o.isProd = false) : Good env .comp (text o) (eval env o) := by
  cases o <;> simp only [GoodOp, Op.level] at h
  · exact h.post.comp
  · exact h.post.comp
  · exact h.comp
  · cases hs
  · cases hp
  · exact h

theorem good_sum (ops : List Op) (hne : ops ≠ []) (h : ∀ o ∈ ops, GoodOp env o) :
    Good env .sum (join .plus (operandTexts ops)) (evalSum env ops) := by
  have operand : ∀ o, GoodOp env o → Good env .prod (if o.isSum then paren (text o) else text o) (eval env o) := by
    intro o ho
    by_cases hs : o.isSum = true
    · rw [if_pos hs]
      exact (Good.toSum ho).paren.post.comp.prod
    · rw [if_neg hs]
      exact ho.toProd (by simpa using hs)
  induction ops with
  | nil => exact absurd rfl hne
  | cons o os ih =>
    cases os with
    | nil =>
      simp only [operandTexts, join, evalSum]
      exact (operand o (h o (by simp))).sum
    | cons p ps =>
      have := ih (by simp) fun q hq => h q (by simp [hq])
      simp only [operandTexts, join, evalSum] at this ⊢
      exact (operand o (h o (by simp))).addition this

theorem good_prod (ops : List Op) (hne : ops ≠ []) (h : ∀ o ∈ ops, GoodOp env o) (hp : ∀ o ∈ ops, o.isProd = false) :
    Good env .prod (join .cross (operandTexts ops)) (evalProd env ops) := by
  have operand : ∀ o, o.isProd = false → GoodOp env o → Good env .comp (if o.isSum then paren (text o) else text o) (eval env o) := by
    intro o hop ho
    by_cases hs : o.isSum = true
    · rw [if_pos hs]
      exact (Good.toSum ho).paren.post.comp
    · rw [if_neg hs]
      exact ho.toComp (by simpa using hs) hop
  induction ops with
  | nil => exact absurd rfl hne
  | cons o os ih =>
    cases os with
    | nil =>
      simp only [operandTexts, join, evalProd]
      exact (operand o (hp o (by simp)) (h o (by simp))).prod
    | cons p ps =>
      have := ih (by simp) (fun q hq => h q (by simp [hq])) fun q hq => hp q (by simp [hq])
      simp only [operandTexts, join, evalProd] at this ⊢
      exact (operand o (hp o (by simp)) (h o (by simp))).product this

theorem hasSpace_append (t u : List Tok) : hasSpace (t ++ u) = (hasSpace t || hasSpace u) := by simp [hasSpace]

theorem hasSpace_join {sep : Tok} (hsep : hasSpace [sep] = true) (ts : List (List Tok)) (h : 2 ≤ ts.length) : hasSpace (join sep ts) = true := by
  match ts, h with
  | t :: u :: us, _ =>
    rw [join]
    · have : t ++ sep :: join sep (u :: us) = t ++ ([sep] ++ join sep (u :: us)) := rfl
      rw [this, hasSpace_append, hasSpace_append, hsep]
      simp
    · simp

theorem length_operandTexts (ops : List Op) : (operandTexts ops).length = ops.length := by
  induction ops with
  | nil => rfl
  | cons o os ih => simp [operandTexts, ih]

theorem flaggedTexts_takeWhile (ops : List Op) :
    (flaggedTexts ops).takeWhile (fun p => p.1) = flaggedTexts (ops.takeWhile Op.linear) := by
  induction ops with
  | nil => rfl
  | cons o os ih =>
    simp only [flaggedTexts, List.takeWhile_cons]
    cases h : o.linear <;> simp [flaggedTexts, ih, h]

theorem flaggedTexts_dropWhile (ops : List Op) :
    (flaggedTexts ops).dropWhile (fun p => p.1) = flaggedTexts (ops.dropWhile Op.linear) := by
  induction ops with
  | nil => rfl
  | cons o os ih =>
    simp only [flaggedTexts, List.dropWhile_cons]
    cases h : o.linear <;> simp [flaggedTexts, ih, h]

theorem flaggedTexts_snd (ops : List Op) : (flaggedTexts ops).map Prod.snd = ops.map text := by
  induction ops with
  | nil => rfl
  | cons o os ih => simp [flaggedTexts, ih]

theorem length_flaggedTexts (ops : List Op) : (flaggedTexts ops).length = ops.length := by
  induction ops with
  | nil => rfl
  | cons o os ih => simp [flaggedTexts, ih]

theorem evalComp_append (l r : List Op) (x : X) : evalComp env (l ++ r) x = evalComp env l (evalComp env r x) := by
  induction l with
  | nil => rfl
  | cons o os ih => simp [evalComp, ih]

theorem Chain.suffix (l r : List Op) (h : Chain (l ++ r)) : Chain r := by
  induction l with
  | nil => exact h
  | cons o os ih =>
    apply ih
    cases hos : os ++ r with
    | nil => trivial
    | cons p ps =>
      rw [List.cons_append, hos] at h
      exact h.2

/-- The linear operands in front of a chain are names if there are several of them. -/
theorem Chain.atoms (o : Op) (os : List Op) (hl : o.linear = true) (h : Chain (o :: os)) (hne : os.takeWhile Op.linear ≠ []) :
    ∀ q ∈ o :: os.takeWhile Op.linear, ∃ k, q = .atom k true := by
  induction os generalizing o with
  | nil => exact absurd rfl hne
  | cons p ps ih =>
    have hp : p.linear = true := by
      by_contra hp
      apply hne
      simp [hp]
    have ho : ∃ k, o = .atom k true := by
      have hb := h.1
      cases o with
      | atom k l => cases l <;> first | exact ⟨k, rfl⟩ | cases hl
      | call k => cases hl
      | power k => cases hl
      | sum ops => exact absurd hp (by rw [hb.2]; decide)
      | prod ops => cases hl
      | comp ops => exact hb.elim
    intro q hq
    rcases List.mem_cons.mp hq with rfl | hq'
    · exact ho
    · obtain ⟨k, rfl⟩ := ho
      have hsum : p.isSum = false := h.1 hp
      rw [List.takeWhile_cons, if_pos hp] at hq'
      by_cases hps : ps.takeWhile Op.linear = []
      · rw [hps] at hq'
        obtain rfl : q = p := by simpa using hq'
        cases q with
        | atom k l => cases l <;> first | exact ⟨k, rfl⟩ | cases hp
        | call k => cases hp
        | power k => cases hp
        | sum ops => cases hsum
        | prod ops => cases hp
        | comp ops =>
          have hc := h.2
          cases ps with
          | nil => cases hc
          | cons r rs => exact hc.1.elim
      · exact ih p hp h.2 hps q hq'

theorem good_atoms (ops : List Op) (hne : ops ≠ []) (h : ∀ q ∈ ops, ∃ k, q = .atom k true) :
    Good env .comp (join .times (ops.map text)) (evalComp env ops) := by
  induction ops with
  | nil => exact absurd rfl hne
  | cons o os ih =>
    obtain ⟨k, rfl⟩ := h o (by simp)
    cases os with
    | nil => exact (Good.name k).post.comp
    | cons p ps =>
      have := ih (by simp) fun q hq => h q (by simp [hq])
      exact (Good.name k).post.composition this

theorem hasSpace_text {o : Op} (hr : ∀ ops, o = .sum ops ∨ o = .prod ops → 2 ≤ ops.length) (h : o.isSum = true ∨ o.isProd = true) :
    hasSpace (text o) = true := by
  cases o with
  | sum ops =>
    rw [text]
    exact hasSpace_join rfl _ (by rw [length_operandTexts]; exact hr ops (.inl rfl))
  | prod ops =>
    rw [text]
    exact hasSpace_join rfl _ (by rw [length_operandTexts]; exact hr ops (.inr rfl))
  | _ => rcases h with h | h <;> cases h

/-- The head of a chain is a power. -/
def headPower : List Op → Bool
  | o :: _ => o.isPower
  | [] => false

theorem good_chain (n : Nat) (ops : List Op) (hn : ops.length ≤ n) (hne : ops ≠ []) (hc : Chain ops) (h : ∀ o ∈ ops, GoodOp env o)
    (hr : ∀ o ∈ ops, ∀ l, o = .sum l ∨ o = .prod l → 2 ≤ l.length) :
    Good env .sum (compText (flaggedTexts ops)) (evalComp env ops) ∧
    (2 ≤ ops.length → Good env .comp (compText (flaggedTexts ops)) (evalComp env ops)) ∧
    (hasSpace (compText (flaggedTexts ops)) = false → headPower ops = false →
      Good env .app (compText (flaggedTexts ops)) (evalComp env ops)) := by
  induction n generalizing ops with
  | zero =>
    cases ops with
    | nil => exact absurd rfl hne
    | cons o os => simp at hn
  | succ n ih =>
    cases ops with
    | nil => exact absurd rfl hne
    | cons o os =>
      have ofApp : Good env .app (compText (flaggedTexts (o :: os))) (evalComp env (o :: os)) →
          Good env .sum (compText (flaggedTexts (o :: os))) (evalComp env (o :: os)) ∧
          (2 ≤ (o :: os).length → Good env .comp (compText (flaggedTexts (o :: os))) (evalComp env (o :: os))) ∧
          (hasSpace (compText (flaggedTexts (o :: os))) = false → headPower (o :: os) = false →
            Good env .app (compText (flaggedTexts (o :: os))) (evalComp env (o :: os))) :=
        fun g => ⟨g.toSum, fun _ => g.post.comp, fun _ _ => g⟩
      have ho := h o (by simp)
      cases hl : o.linear with
      | false =>
        cases os with
        | nil =>
          have e : compText (flaggedTexts [o]) = text o := by
            simp [flaggedTexts, hl, compText]
          have ev : evalComp env [o] = eval env o := rfl
          rw [e, ev]
          refine ⟨Good.toSum ho, fun h2 => absurd h2 (by simp), fun hs hp => ?_⟩
          cases o with
          | atom k l => exact ho
          | call k => exact ho
          | power k => cases hp
          | sum l => exact absurd (hasSpace_text (hr (.sum l) (by simp)) (.inl rfl)) (by rw [hs]; decide)
          | prod l => exact absurd (hasSpace_text (hr (.prod l) (by simp)) (.inr rfl)) (by rw [hs]; decide)
          | comp l => cases hc
        | cons p ps =>
          have e : compText (flaggedTexts (o :: p :: ps)) = applyText (text o) (compText (flaggedTexts (p :: ps))) := by
            rw [flaggedTexts, hl, compText]
            simp [flaggedTexts]
          obtain ⟨i1, _, i3⟩ := ih (p :: ps) (by simp at hn ⊢; omega) (by simp) hc.2 (fun q hq => h q (by simp [hq]))
            fun q hq => hr q (by simp [hq])
          have hb := hc.1
          cases o with
          | atom k l =>
            apply ofApp
            rw [e]
            exact Good.apply k i1
          | call k =>
            apply ofApp
            rw [e]
            exact Good.applyComma k i1
          | power k =>
            have g : Good env .post (compText (flaggedTexts (.power k :: p :: ps))) (evalComp env (.power k :: p :: ps)) := by
              rw [e]
              have ht : applyText (text (.power k)) (compText (flaggedTexts (p :: ps))) =
                  (if hasSpace (compText (flaggedTexts (p :: ps))) = true then paren (compText (flaggedTexts (p :: ps)))
                    else compText (flaggedTexts (p :: ps))) ++ [.pow k] := by
                simp only [applyText, text]
                cases hasSpace (compText (flaggedTexts (p :: ps))) <;> simp [isProtected, replace]
              rw [ht]
              apply Good.pow (f := evalComp env (p :: ps))
              by_cases hs : hasSpace (compText (flaggedTexts (p :: ps))) = true
              · rw [if_pos hs]
                exact i1.paren
              · rw [if_neg hs]
                exact i3 (by simpa using hs) hb
            exact ⟨g.toSum, fun _ => g.comp, fun _ hp => by cases hp⟩
          | sum l => exact absurd hb.1 (by rw [hl]; decide)
          | prod l => exact hb.elim
          | comp l => exact hb.elim
      | true =>
        have hsplit : os = os.takeWhile Op.linear ++ os.dropWhile Op.linear := List.takeWhile_append_dropWhile.symm
        have e : compText (flaggedTexts (o :: os)) =
            if (os.dropWhile Op.linear).isEmpty then join .times ((o :: os.takeWhile Op.linear).map text)
            else if (os.takeWhile Op.linear).length + 1 > 1 || hasSpace (join .times ((o :: os.takeWhile Op.linear).map text)) then
              paren (join .times ((o :: os.takeWhile Op.linear).map text)) ++ paren (compText (flaggedTexts (os.dropWhile Op.linear)))
            else join .times ((o :: os.takeWhile Op.linear).map text) ++ paren (compText (flaggedTexts (os.dropWhile Op.linear))) := by
          rw [flaggedTexts, hl, compText]
          simp only [flaggedTexts_takeWhile, flaggedTexts_dropWhile, flaggedTexts_snd, length_flaggedTexts, List.map_cons]
          have : (flaggedTexts (os.dropWhile Op.linear)).isEmpty = (os.dropWhile Op.linear).isEmpty := by
            cases os.dropWhile Op.linear <;> rfl
          rw [this]
        have ev : evalComp env (o :: os) = fun x => evalComp env (o :: os.takeWhile Op.linear) (evalComp env (os.dropWhile Op.linear) x) := by
          funext x
          rw [← evalComp_append, List.cons_append, ← hsplit]
        have hro := hr o (by simp)
        by_cases hd : os.dropWhile Op.linear = []
        · have hos : os = os.takeWhile Op.linear := by rw [hd, List.append_nil] at hsplit; exact hsplit
          rw [e, ev, hd]
          simp only [List.isEmpty_nil, if_true]
          change Good env .sum _ (evalComp env (o :: os.takeWhile Op.linear)) ∧
            (_ → Good env .comp _ (evalComp env (o :: os.takeWhile Op.linear))) ∧
            (_ → _ → Good env .app _ (evalComp env (o :: os.takeWhile Op.linear)))
          by_cases ht : os.takeWhile Op.linear = []
          · rw [ht] at hos ⊢
            subst hos
            refine ⟨Good.toSum ho, fun h2 => absurd h2 (by simp), fun hs hp => ?_⟩
            cases o with
            | atom k l => exact ho
            | call k => cases hl
            | power k => cases hl
            | sum l => exact absurd (hasSpace_text hro (.inl rfl)) (by change _ ≠ true; rw [show hasSpace (text (.sum l)) = false from hs]; decide)
            | prod l => cases hl
            | comp l => cases hc
          · have g := good_atoms (env := env) (o :: os.takeWhile Op.linear) (by simp) (Chain.atoms o os hl hc ht)
            refine ⟨g.toSum, fun _ => g, fun hs _ => ?_⟩
            have := hasSpace_join (sep := .times) rfl ((o :: os.takeWhile Op.linear).map text) (by
              cases hh : os.takeWhile Op.linear with
              | nil => exact absurd hh ht
              | cons a b => simp)
            rw [this] at hs
            cases hs
        · apply ofApp
          have hlen : (os.dropWhile Op.linear).length ≤ n := by
            have := (List.dropWhile_sublist (l := os) Op.linear).length_le
            simp at hn
            omega
          have hc' : Chain (os.dropWhile Op.linear) := Chain.suffix (o :: os.takeWhile Op.linear) _ (by rw [List.cons_append, ← hsplit]; exact hc)
          have hmem : ∀ q ∈ os.dropWhile Op.linear, q ∈ o :: os := fun q hq =>
            List.mem_cons_of_mem _ ((List.dropWhile_sublist (l := os) Op.linear).subset hq)
          obtain ⟨i1, _, _⟩ := ih _ hlen hd hc' (fun q hq => h q (hmem q hq)) fun q hq => hr q (hmem q hq)
          rw [e, ev, if_neg (by simpa using hd)]
          by_cases ht : os.takeWhile Op.linear = []
          · rw [ht]
            have hg : ∀ x, evalComp env [o] x = eval env o x := fun _ => rfl
            by_cases hs : hasSpace (text o) = true
            · have hcond : (decide (([] : List Op).length + 1 > 1) || hasSpace (join .times ([o].map text))) = true := by
                simpa [join] using hs
              rw [if_pos hcond]
              exact Good.applyParen (f := eval env o) (Good.toSum ho) i1
            · have hcond : ¬ (decide (([] : List Op).length + 1 > 1) || hasSpace (join .times ([o].map text))) = true := by
                simpa [join] using hs
              rw [if_neg hcond]
              cases o with
              | atom k l => exact Good.apply k i1
              | call k => cases hl
              | power k => cases hl
              | sum l => exact absurd (hasSpace_text hro (.inl rfl)) hs
              | prod l => cases hl
              | comp l =>
                cases os with
                | nil => exact absurd rfl hd
                | cons p ps => exact hc.1.elim
          · have g := good_atoms (env := env) (o :: os.takeWhile Op.linear) (by simp) (Chain.atoms o os hl hc ht)
            have hcond : (decide ((os.takeWhile Op.linear).length + 1 > 1) ||
                hasSpace (join .times ((o :: os.takeWhile Op.linear).map text))) = true := by
              have : 0 < (os.takeWhile Op.linear).length := List.length_pos_iff.mpr ht
              simp [this]
            rw [if_pos hcond]
            exact Good.applyParen g.toSum i1

theorem readable_length (os : List Op) (h : AllReadable os) : ∀ o ∈ os, ∀ l, o = .sum l ∨ o = .prod l → 2 ≤ l.length := by
  induction os with
  | nil => intro o ho; cases ho
  | cons a as ih =>
    intro o ho l hl
    rw [AllReadable] at h
    rcases List.mem_cons.mp ho with rfl | ho
    · have hr := h.1
      rcases hl with rfl | rfl <;> (rw [Readable] at hr; exact hr.1)
    · exact ih h.2 o ho l hl

mutual
theorem goodOp (env : Env X) : ∀ o : Op, Readable o → GoodOp env o
  | .atom k _, _ => Good.name k
  | .call k, _ => Good.applyComma k Good.hole.post.comp.prod.sum
  | .power k, _ => Good.hole.pow k
  | .sum ops, h => by
    rw [Readable] at h
    have := good_sum ops (by rintro rfl; simp at h) (goodOps env ops h.2)
    rw [GoodOp, text]
    exact this
  | .prod ops, h => by
    rw [Readable] at h
    have := good_prod ops (by rintro rfl; simp at h) (goodOps env ops h.2.1) h.2.2
    rw [GoodOp, text]
    exact this
  | .comp ops, h => by
    rw [Readable] at h
    have := good_chain ops.length ops (le_refl _) (by rintro rfl; simp at h) h.2.2 (goodOps env ops h.2.1) (readable_length ops h.2.1)
    rw [GoodOp, text]
    exact this.2.1 h.1
theorem goodOps (env : Env X) : ∀ os : List Op, AllReadable os → ∀ o ∈ os, GoodOp env o
  | [], _ => by intro o ho; cases ho
  | a :: as, h => by
    rw [AllReadable] at h
    intro o ho
    rcases List.mem_cons.mp ho with e | ho
    · rw [e]
      exact goodOp env a h.1
    · exact goodOps env as h.2 o ho
end

/-- C110, partial: the text of an operator, read as a formula, is the operator. Missing: sums and products that are applied to the result of another
operator, sums among several consecutive linear operators, and powers of powers (`C110_sum_fails`, `C110_nonlinear_fails`, `C110_product_fails`,
`C110_power_fails`). -/
theorem C110_partial (env : Env X) (o : Op) (h : Readable o) : Means env (text o) (eval env o) := (Good.toSum (goodOp env o h)).means

/-- C110: the text of a composition of any number of operators, linear or not, whose texts are names or functions with other arguments, is read as the
successive application of the operators. -/
theorem C110_composition (env : Env X) (ops : List Op) (hl : 2 ≤ ops.length) (h : ∀ o ∈ ops, (∃ k l, o = .atom k l) ∨ ∃ k, o = .call k) :
    Means env (text (.comp ops)) fun x => ops.foldr (fun o y => eval env o y) x := by
  have hr : ∀ os : List Op, (∀ o ∈ os, (∃ k l, o = .atom k l) ∨ ∃ k, o = .call k) → AllReadable os ∧ Chain os := by
    intro os
    induction os with
    | nil => intro _; exact ⟨trivial, trivial⟩
    | cons a as ih =>
      intro ha
      have ⟨i1, i2⟩ := ih fun o ho => ha o (by simp [ho])
      have h1 : Readable a ∧ a.isComp = false := by
        rcases ha a (by simp) with ⟨k, l, rfl⟩ | ⟨k, rfl⟩ <;> exact ⟨trivial, rfl⟩
      refine ⟨⟨h1.1, i1⟩, ?_⟩
      cases as with
      | nil => exact h1.2
      | cons b bs =>
        have hb : b.isSum = false := by
          rcases ha b (by simp) with ⟨k, l, rfl⟩ | ⟨k, rfl⟩ <;> rfl
        refine ⟨?_, i2⟩
        rcases ha a (by simp) with ⟨k, l, rfl⟩ | ⟨k, rfl⟩
        · cases l
          · trivial
          · exact fun _ => hb
        · trivial
  have he : eval env (.comp ops) = fun x => ops.foldr (fun o y => eval env o y) x := by
    funext x
    rw [eval]
    induction ops with
    | nil => rfl
    | cons a as ih =>
      clear ih
      have : ∀ l : List Op, evalComp env l x = l.foldr (fun o y => eval env o y) x := by
        intro l
        induction l with
        | nil => rfl
        | cons b bs ihb => simp [evalComp, ihb]
      exact this _
  rw [← he]
  exact C110_partial env (.comp ops) (by rw [Readable]; exact ⟨hl, (hr ops h).1, (hr ops h).2⟩)

/-- C110, partial: operators with the same text compute the same function, for the operators of `C110_partial`. -/
theorem C110_same_partial (env : Env X) (a b : Op) (ha : Readable a) (hb : Readable b) (h : text a = text b) : eval env a = eval env b :=
  (C110_partial env a ha).unique (h ▸ C110_partial env b hb)

/-- Names that stand for the functions x, 2x, x + 1 (0, 1, 2). -/
def sample : Env Int where
  fn k x := if k = 0 then x else if k = 1 then 2 * x else x + 1
  power k x := x ^ k

/-- C110 fails: the text of the composition (A + B) * C of linear operators is A + B * C. -/
theorem C110_sum_fails : ∃ (o p : Op) (x : Int), o.linear = true ∧ Readable p ∧ text o = text p ∧ Means sample (text o) (eval sample p) ∧
    eval sample o x ≠ eval sample p x := by
  have hp : Readable (.sum [.atom 0 true, .comp [.atom 0 true, .atom 1 true]]) := by
    simp [Readable, AllReadable, Chain, Before, Op.isSum, Op.isComp]
  have ht : text (.comp [.sum [.atom 0 true, .atom 0 true], .atom 1 true]) = text (.sum [.atom 0 true, .comp [.atom 0 true, .atom 1 true]]) := by
    simp [text, flaggedTexts, operandTexts, compText, join, Op.isSum, Op.linear, Op.linear.all]
  exact ⟨.comp [.sum [.atom 0 true, .atom 0 true], .atom 1 true], .sum [.atom 0 true, .comp [.atom 0 true, .atom 1 true]], 1, rfl, hp, ht,
    ht ▸ C110_partial sample _ hp, by simp [eval, evalSum, evalComp, sample]⟩

/-- C110 fails: the text of (f + g)(h) for nonlinear operators is f + g(h). -/
theorem C110_nonlinear_fails : ∃ (o p : Op) (x : Int), Readable p ∧ text o = text p ∧ Means sample (text o) (eval sample p) ∧
    eval sample o x ≠ eval sample p x := by
  have hp : Readable (.sum [.atom 2 false, .comp [.atom 2 false, .atom 2 false]]) := by
    simp [Readable, AllReadable, Chain, Before, Op.isComp]
  have ht : text (.comp [.sum [.atom 2 false, .atom 2 false], .atom 2 false]) = text (.sum [.atom 2 false, .comp [.atom 2 false, .atom 2 false]]) := by
    simp [text, flaggedTexts, operandTexts, compText, join, Op.isSum, Op.linear, Op.linear.all, applyText, paren]
  exact ⟨.comp [.sum [.atom 2 false, .atom 2 false], .atom 2 false], .sum [.atom 2 false, .comp [.atom 2 false, .atom 2 false]], 1, hp, ht,
    ht ▸ C110_partial sample _ hp, by simp [eval, evalSum, evalComp, sample]⟩

/-- C110 fails: the text of the element-wise product (f × g)(h) is f × g(h). -/
theorem C110_product_fails : ∃ (o p : Op) (x : Int), Readable p ∧ text o = text p ∧ Means sample (text o) (eval sample p) ∧
    eval sample o x ≠ eval sample p x := by
  have hp : Readable (.prod [.atom 2 false, .comp [.atom 2 false, .atom 2 false]]) := by
    simp [Readable, AllReadable, Chain, Before, Op.isComp, Op.isProd]
  have ht : text (.comp [.prod [.atom 2 false, .atom 2 false], .atom 2 false]) =
      text (.prod [.atom 2 false, .comp [.atom 2 false, .atom 2 false]]) := by
    simp [text, flaggedTexts, operandTexts, compText, join, Op.isSum, Op.linear, applyText, paren]
  exact ⟨.comp [.prod [.atom 2 false, .atom 2 false], .atom 2 false], .prod [.atom 2 false, .comp [.atom 2 false, .atom 2 false]], 1, hp, ht,
    ht ▸ C110_partial sample _ hp, by simp [eval, evalProd, evalComp, sample]⟩

/-- C110 fails: the text of the square of the cube is ...**3**2, which is the ninth power. -/
theorem C110_power_fails : ∃ (o : Op) (f : Int → Int) (x : Int), Means sample (text o) f ∧ eval sample o x ≠ f x := by
  refine ⟨.comp [.power 2, .power 3], fun x => sample.power 9 x, 2, ⟨10, ?_⟩, by simp [eval, evalComp, sample]⟩
  have ht : text (.comp [.power 2, .power 3]) = [.hole, .pow 3, .pow 2] := by
    simp [text, flaggedTexts, compText, Op.linear, applyText, isProtected, hasSpace, replace]
  intro n hn
  obtain ⟨m, rfl⟩ : ∃ m, n = m + 5 := ⟨n - 5, by omega⟩
  rw [ht]
  simp [read, exponent]

/-! ### Examples -/

/-- `(l * l)(n(a(..., z=1)**2 + l * m))`. -/
example : Readable (.comp [.atom 1 true, .atom 1 true, .atom 2 false,
    .sum [.comp [.power 2, .call 3], .comp [.atom 1 true, .atom 4 true]]]) := by
  simp [Readable, AllReadable, Chain, Before, Op.isSum, Op.isComp, Op.isPower]

example : text (.comp [.atom 1 true, .atom 1 true, .atom 2 false]) =
    [.lpar, .name 1, .times, .name 1, .rpar, .lpar, .name 2, .rpar] := by
  simp [text, flaggedTexts, compText, join, Op.linear, paren]

/-- `(f + g) × h` and `f + g × h` are different texts. -/
example : text (.prod [.sum [.atom 0 true, .atom 1 true], .atom 2 false]) =
    [.lpar, .name 0, .plus, .name 1, .rpar, .cross, .name 2] ∧
    text (.sum [.atom 0 true, .prod [.atom 1 true, .atom 2 false]]) = [.name 0, .plus, .name 1, .cross, .name 2] := by
  simp [text, operandTexts, join, Op.isSum, paren]

end Verif.Printing
