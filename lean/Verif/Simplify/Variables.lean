import Verif.Simplify.Props
import Verif.Simplify.HomothetyProps
import Mathlib.Algebra.FreeMonoid.Basic
import Mathlib.Data.Rat.Defs
import Mathlib.Algebra.Field.Rat

/-
Model of the products of variables: `Variable` and `VariableTranspose` (src/pyoperators/core.py:4660-4760), the products of operators
(src/pyoperators/core.py:1480-1516 and 1544-1545) and the transpose of a composition (src/pyoperators/core.py:2298-2300), and
property C121.

The composition is simplified by the functions of Verif/Simplify/Homothety.lean and Verif/Simplify/Model.lean.
-/

namespace Verif.Simplify.Variables

open Verif.Simplify

/-- The operands of a composition. `lin absorbs c n` is c times the n-th linear operator; `absorbs` when it has a rule that absorbs the scalars (as
the dense operators, src/pyoperators/linear.py:195-197). `hom c` is a HomothetyOperator that is not the identity; the scalar 0, which gives a ZeroOperator,
is excluded by the type K, a group. `var v` and `tvar v` are Variable and VariableTranspose of name v; their shape is not represented.
Simplification: the linear operators have no other rules. -/
inductive Op (K : Type) where
  | lin (absorbs : Bool) (c : K) (n : Nat)
  | hom (c : K)
  | ident
  | var (v : Nat)
  | tvar (v : Nat)
deriving DecidableEq, Repr

variable {K : Type}

/-- `len(type(op).__mro__)`, which only matters for the operators that have rules here: IdentityOperator has the bases HomothetyOperator,
DiagonalOperator, DiagonalBase, BroadcastingBase, Operator and object (src/pyoperators/core.py:4349-4390, 4157, 4209). -/
def mro : Op K → Int
  | .ident => 7
  | .hom _ => 6
  | _ => 3

/-- The rule ('.', Operator) of IdentityOperator: src/pyoperators/core.py:4410 and 4418-4420. The key is that of src/pyoperators/core.py:2222-2227;
the class Operator has two classes in its `__mro__`. -/
def identityLeft : Rule (Op K) := ⟨fun o1 _ => 1000 - mro o1 - 2, fun _ o2 => some (.one o2)⟩

/-- The rule (Operator, '.') of IdentityOperator: src/pyoperators/core.py:4411 and 4422-4424. -/
def identityRight : Rule (Op K) := ⟨fun _ o2 => 1000 - 2 - mro o2, fun o1 _ => some (.one o1)⟩

/-- The rule ('.', Operator) of Variable, which raises TypeError: src/pyoperators/core.py:4670-4674. An exception ends the simplification as does
a rule that returns too many operands, so it is represented by the latter. -/
def variableLeft : Rule (Op K) := ⟨fun o1 _ => 1000 - mro o1 - 2, fun _ _ => some (.many [])⟩

/-- The rule (Operator, '.') of VariableTranspose, which raises ValueError: src/pyoperators/core.py:4724-4728. -/
def transposeRight : Rule (Op K) := ⟨fun _ o2 => 1000 - 2 - mro o2, fun _ _ => some (.many [])⟩

/-- The rules of the operands for the composition. `_merge` changes the attributes of the operators only. -/
def table : Table (Op K) where
  left := fun o => match o with | .ident => [identityLeft] | .var _ => [variableLeft] | _ => []
  right := fun o => match o with | .ident => [identityRight] | .tvar _ => [transposeRight] | _ => []
  merge := fun a _ _ => a

/-- What the gathering of the scalars uses of the operands. All of them are linear: src/pyoperators/core.py:4658 and 4712. -/
def htable [Mul K] : HTable (Op K) K where
  linear := fun _ => true
  isIdentity := fun o => match o with | .ident => true | _ => false
  homothety := fun o => match o with | .hom c => some c | _ => none
  toIdentity := fun _ => .ident
  mkHomothety := .hom
  left := fun o => match o with | .lin true c n => [fun _ d => some (.lin true (c * d) n)] | _ => []
  right := fun _ => []

/-- The outcome of a product: an operator, which is given by its operands if it is a composition, an element-wise product of operators, or an exception;
`endless` if the simplification does not end. -/
inductive Res (K : Type) where
  | op (ops : List (Op K))
  | times (ops1 ops2 : List (Op K))
  | raised
  | endless
deriving DecidableEq, Repr

/-- `CompositionOperator(operands)`: src/pyoperators/core.py:2286-2292 and 2429-2433. Simplification: the operands that are compositions are replaced by
their operands beforehand, instead of by the rules of src/pyoperators/core.py:2311-2325. -/
def compose [CommGroup K] [DecidableEq K] (ops : List (Op K)) : Res K :=
  match table.applyRules false (2 * (htable.applyHomothety ops).length) (htable.applyHomothety ops) with
  | some (.ok res) => .op res
  | some (.error _) => .raised
  | none => .endless

/-- The factors of a product in Python: a scalar or an operator, given by its operands if it is a composition. -/
inductive Factor (K : Type) where
  | scalar (c : K)
  | op (ops : List (Op K))
deriving DecidableEq, Repr

/-- `asoperator(c)`, that is HomothetyOperator(c): src/pyoperators/core.py:4866-4873; it is an identity if c is one
(src/pyoperators/core.py:4259-4262). -/
def asOp [One K] [DecidableEq K] (c : K) : Op K := if c = 1 then .ident else .hom c

/-- `isinstance(op, HomothetyOperator)` -/
def isHomothety : List (Op K) → Bool
  | [.hom _] => true
  | [.ident] => true
  | _ => false

section
variable [CommGroup K] [DecidableEq K]

/-- `Variable.__mul__`: src/pyoperators/core.py:4676-4692. Arrays and the operators that are not linear are not represented. -/
def mulVariable (v : Nat) : Factor K → Res K
  | .scalar c => compose [asOp c, .var v]
  | .op [.var w] => .times [.var v] [.var w]
  | .op [.tvar w] => compose [.var v, .tvar w]
  | .op ops => if isHomothety ops then compose (ops ++ [.var v]) else .times ops [.var v]

/-- `VariableTranspose.__mul__`: src/pyoperators/core.py:4730-4748. -/
def mulTranspose (v : Nat) : Factor K → Res K
  | .scalar c => compose [asOp c, .tvar v]
  | .op [.tvar _] => .raised
  | .op [.var w] => compose [.tvar v, .var w]
  | .op ops => if isHomothety ops then compose (ops ++ [.tvar v]) else compose (.tvar v :: ops)

/-- `Variable.__rmul__`: src/pyoperators/core.py:4694-4701; all the operators are linear here. -/
def rmulVariable (v : Nat) : Factor K → Res K
  | .scalar c => compose [asOp c, .var v]
  | .op ops => compose (ops ++ [.var v])

/-- `VariableTranspose.__rmul__`: src/pyoperators/core.py:4750-4753. -/
def rmulTranspose (v : Nat) : Factor K → Res K
  | .scalar c => compose [.tvar v, asOp c]
  | .op ops => if isHomothety ops then compose (.tvar v :: ops) else .raised

/-- The product `a * b`, in which one of the factors at least is an operator (the product of two scalars is an operator here). When a is not an operator, Python calls
`b.__rmul__`. `Operator.__mul__`: src/pyoperators/core.py:1480-1499; `Operator.__rmul__`: src/pyoperators/core.py:1501-1514. An operator that is idempotent times itself
is not special here. -/
def mul : Factor K → Factor K → Res K
  | .scalar c, .scalar d => .op [asOp (c * d)]
  | .scalar c, .op [.var v] => rmulVariable v (.scalar c)
  | .scalar c, .op [.tvar v] => rmulTranspose v (.scalar c)
  | .scalar c, .op ops => compose (asOp c :: ops)
  | .op [.var v], b => mulVariable v b
  | .op [.tvar v], b => mulTranspose v b
  | .op ops, .op [.var v] => rmulVariable v (.op ops)
  | .op ops, .op [.tvar v] => rmulTranspose v (.op ops)
  | .op ops, .op ops' => compose (ops ++ ops')
  | .op ops, .scalar c => compose (ops ++ [asOp c])

/-- The transpose of an operand; src/pyoperators/core.py:4669 and 4723 for the variables. The transpose of the n-th linear operator is named by t n. -/
def Op.transpose (t : Nat → Nat) : Op K → Op K
  | .lin a c n => .lin a c (t n)
  | .hom c => .hom c
  | .ident => .ident
  | .var v => .tvar v
  | .tvar v => .var v

/-- The transpose of an operator: src/pyoperators/core.py:2298-2300 for compositions. -/
def transpose (t : Nat → Nat) : List (Op K) → Res K
  | [o] => .op [o.transpose t]
  | ops => compose (ops.reverse.map (Op.transpose t))

end

/-! ### Specification -/

/-- The meanings of the scalars, of the linear operators, of the variables and of the transposed variables, in a monoid in which scalars commute with everything. -/
structure Meaning (K M : Type) [Monoid K] [Monoid M] where
  scalar : K →* M
  central : ∀ c m, scalar c * m = m * scalar c
  lin : Nat → M
  var : Nat → M
  tvar : Nat → M

/-- The meaning of an operand. -/
def Meaning.operand {M : Type} [Monoid K] [Monoid M] (I : Meaning K M) : Op K → M
  | .lin _ c n => I.scalar c * I.lin n
  | .hom c => I.scalar c
  | .ident => 1
  | .var v => I.var v
  | .tvar v => I.tvar v

/-- The meaning of a sequence of operands: their product. -/
def Meaning.value {M : Type} [Monoid K] [Monoid M] (I : Meaning K M) (ops : List (Op K)) : M := (ops.map I.operand).prod

/-- The meaning of a factor. -/
def Meaning.factor {M : Type} [Monoid K] [Monoid M] (I : Meaning K M) : Factor K → M
  | .scalar c => I.scalar c
  | .op ops => I.value ops

/-- The operands but the scalars and the identities. -/
def words (ops : List (Op K)) : List (Op K) :=
  ops.filter (fun o => match o with | .hom _ => false | .ident => false | _ => true)

/-- A variable is the last of the operands and a transposed variable is the first one. -/
def Placed (ops : List (Op K)) : Prop :=
  (∀ p v q, ops = p ++ .var v :: q → q = []) ∧ ∀ p v q, ops = p ++ .tvar v :: q → p = []

/-- The product of the scalars. -/
def scalars [Monoid K] (ops : List (Op K)) : K :=
  (ops.map (fun o => match o with | .hom c => c | _ => 1)).prod

/-- One of the operands absorbs scalars. -/
def Absorbing (ops : List (Op K)) : Prop := ∃ c n, .lin true c n ∈ ops

/-- One of the operands is a transposed variable. -/
def Transposed (ops : List (Op K)) : Prop := ∃ v, .tvar v ∈ ops

/-! ### The rules -/

/-- The operands but the identities. -/
def nonident (ops : List (Op K)) : List (Op K) :=
  ops.filter (fun o => match o with | .ident => false | _ => true)

/-- The rules of the variables do not raise exceptions. -/
def Fits (ops : List (Op K)) : Prop :=
  ∀ p a b q, ops = p ++ a :: b :: q → (∀ v, a ≠ .var v) ∧ ∀ v, b ≠ .tvar v

theorem first_ident (b : Op K) : table.first .ident b = some (.one b) := by
  cases b <;> simp [Table.first, Table.rules, table, identityLeft, identityRight, transposeRight, mro, List.mergeSort, List.MergeSort.Internal.splitInTwo, List.merge]

theorem first_right (a : Op K) : table.first a .ident = some (.one a) := by
  cases a <;> simp [Table.first, Table.rules, table, identityLeft, identityRight, variableLeft, mro, List.mergeSort, List.MergeSort.Internal.splitInTwo, List.merge]

theorem first_raises (a b : Op K) (ha : a ≠ .ident) (hb : b ≠ .ident) (h : (∃ v, a = .var v) ∨ ∃ v, b = .tvar v) :
    table.first a b = some (.many []) := by
  cases a <;> cases b <;> simp_all [Table.first, Table.rules, table, identityLeft, identityRight, variableLeft, transposeRight, mro, List.mergeSort, List.MergeSort.Internal.splitInTwo, List.merge]

theorem first_nothing (a b : Op K) (ha : a ≠ .ident) (hb : b ≠ .ident) (h : ¬((∃ v, a = .var v) ∨ ∃ v, b = .tvar v)) :
    table.first a b = none := by
  cases a <;> cases b <;> simp_all [Table.first, Table.rules, table, identityLeft, identityRight, variableLeft, transposeRight, mro, List.mergeSort, List.MergeSort.Internal.splitInTwo, List.merge]

theorem nonident_append (l m : List (Op K)) : nonident (l ++ m) = nonident l ++ nonident m := List.filter_append ..

theorem nonident_ident (l : List (Op K)) : nonident (.ident :: l) = nonident l := rfl

theorem nonident_cons (o : Op K) (l : List (Op K)) (h : o ≠ .ident) : nonident (o :: l) = o :: nonident l := by
  cases o <;> first | rfl | exact absurd rfl h

theorem first_one (a b c : Op K) (h : table.first a b = some (.one c)) (p q : List (Op K)) :
    nonident (p ++ c :: q) = nonident (p ++ a :: b :: q) := by
  rw [nonident_append, nonident_append]
  congr 1
  by_cases ha : a = .ident
  · subst ha
    rw [first_ident] at h
    cases h
    rfl
  by_cases hb : b = .ident
  · subst hb
    rw [first_right] at h
    cases h
    rw [nonident_cons _ _ ha, nonident_cons _ _ ha]
    rfl
  by_cases hv : (∃ v, a = .var v) ∨ ∃ v, b = .tvar v
  · rw [first_raises a b ha hb hv] at h; cases h
  · rw [first_nothing a b ha hb hv] at h; cases h

theorem first_two (a b c d : Op K) : table.first a b ≠ some (.two c d) := by
  intro h
  by_cases ha : a = .ident
  · subst ha
    rw [first_ident] at h
    cases h
  by_cases hb : b = .ident
  · subst hb
    rw [first_right] at h
    cases h
  by_cases hv : (∃ v, a = .var v) ∨ ∃ v, b = .tvar v
  · rw [first_raises a b ha hb hv] at h; cases h
  · rw [first_nothing a b ha hb hv] at h; cases h

theorem step_raises (ops : List (Op K)) (i : Nat) (hi : i + 2 ≤ ops.length) (e : Err) (h : table.step ops i = .error e) : ¬ Fits (nonident ops) := by
  unfold Table.step at h
  rw [List.getElem?_eq_getElem (by omega : i < ops.length), List.getElem?_eq_getElem (by omega : i + 1 < ops.length)] at h
  dsimp only at h
  split at h
  · cases h
  · rename_i os hf
    obtain ⟨p, q, e1, -⟩ := split_at ops i _ _ (List.getElem?_eq_getElem (by omega : i < ops.length)) (List.getElem?_eq_getElem (by omega : i + 1 < ops.length))
    generalize ops[i] = a at *
    generalize ops[i + 1] = b at *
    intro hfit
    have ha : a ≠ .ident := by rintro rfl; rw [first_ident] at hf; cases hf
    have hb : b ≠ .ident := by rintro rfl; rw [first_right] at hf; cases hf
    have := hfit (nonident p) a b (nonident q) (by rw [e1, nonident_append, nonident_cons _ _ ha, nonident_cons _ _ hb])
    by_cases hv : (∃ v, a = .var v) ∨ ∃ v, b = .tvar v
    · rcases hv with ⟨v, hv⟩ | ⟨v, hv⟩
      · exact this.1 v hv
      · exact this.2 v hv
    · rw [first_nothing a b ha hb hv] at hf; cases hf
  · split at h <;> cases h
  · split at h <;> cases h

theorem loop_total (fuel : Nat) (s : State (Op K)) (hv : Valid s) (hf : s.ops.length + s.pos ≤ fuel + 1) :
    ∃ r, table.loop fuel s = some r ∧ (∀ e, r = .error e → ¬ Fits (nonident s.ops)) ∧ ∀ l, r = .ok l → nonident l = nonident s.ops := by
  induction fuel generalizing s with
  | zero =>
    unfold Valid at hv
    unfold Table.loop
    rw [if_pos (by omega)]
    exact ⟨_, rfl, by simp, by rintro l ⟨⟩; rfl⟩
  | succ fuel ih =>
    unfold Table.loop
    split
    · exact ⟨_, rfl, by simp, by rintro l ⟨⟩; rfl⟩
    · rename_i i hp
      unfold Valid at hv
      split
      · rename_i e he
        exact ⟨_, rfl, fun _ _ => step_raises s.ops i (by omega) e he, by simp⟩
      · rename_i s' he
        obtain ⟨p, q, o1, o2, e, hpl, hcase⟩ := step_cases table _ _ _ he
        have hn : nonident s'.ops = nonident s.ops := by
          rcases hcase with ⟨_, rfl⟩ | ⟨a, b, hf, es, ep⟩ | ⟨a, hf, es, ep⟩
          · rfl
          · exact absurd hf (first_two _ _ _ _)
          · rw [es, e]; exact first_one _ _ _ hf p q
        rw [← hn]
        refine ih s' (step_valid table _ _ _ he) ?_
        rcases hcase with ⟨_, rfl⟩ | ⟨a, b, hf, es, ep⟩ | ⟨a, hf, es, ep⟩
        · dsimp only; omega
        · exact absurd hf (first_two _ _ _ _)
        · rw [es, ep]
          have hlen : s.ops.length = (p ++ o1 :: o2 :: q).length := by rw [e]
          simp only [List.length_append, List.length_cons] at hlen ⊢
          split <;> omega

theorem irreducible_pair (a b : Op K) (h : Irreducible table a b) :
    a ≠ .ident ∧ b ≠ .ident ∧ (∀ v, a ≠ .var v) ∧ ∀ v, b ≠ .tvar v := by
  have hn : table.first a b = none := by
    unfold Table.first
    rw [List.findSome?_eq_none_iff]
    intro r hr
    exact h r (List.mem_mergeSort.1 hr)
  have ha : a ≠ .ident := by rintro rfl; rw [first_ident] at hn; cases hn
  have hb : b ≠ .ident := by rintro rfl; rw [first_right] at hn; cases hn
  refine ⟨ha, hb, fun v hv => ?_, fun v hv => ?_⟩
  · rw [first_raises a b ha hb (Or.inl ⟨v, hv⟩)] at hn; cases hn
  · rw [first_raises a b ha hb (Or.inr ⟨v, hv⟩)] at hn; cases hn

theorem fits_nonident (l : List (Op K)) (h : ∀ p q a b, l = p ++ a :: b :: q → Irreducible table a b) : Fits (nonident l) := by
  match l with
  | [] => intro p a b q e; simp [nonident] at e
  | [o] =>
    intro p a b q e
    have := congrArg List.length e
    have h2 : (nonident [o]).length ≤ 1 := List.length_filter_le _ _
    simp at this
    omega
  | x :: y :: tl =>
    have hmem : ∀ o ∈ x :: y :: tl, o ≠ .ident := by
      intro o ho
      obtain ⟨p, q, e⟩ := List.append_of_mem ho
      match q with
      | b :: q => exact (irreducible_pair _ _ (h p q o b e)).1
      | [] =>
        rcases List.eq_nil_or_concat p with rfl | ⟨p', a, rfl⟩
        · simp at e
        · exact (irreducible_pair _ _ (h p' [] a o (by simpa using e))).2.1
    have : nonident (x :: y :: tl) = x :: y :: tl := by
      refine List.filter_eq_self.2 (fun o ho => ?_)
      have := hmem o ho
      cases o <;> first | rfl | exact absurd rfl this
    rw [this]
    intro p a b q e
    exact (irreducible_pair _ _ (h p q a b e)).2.2

/-- The simplification of the operands succeeds when the rules do not raise, and only then. -/
theorem applyRules_iff (ops : List (Op K)) :
    ∃ r, table.applyRules false (2 * ops.length) ops = some r ∧ (∀ l, r = .ok l → Fits (nonident ops)) ∧ ∀ e, r = .error e → ¬ Fits (nonident ops) := by
  have hC := C14_simplification_effect (M := Multiplicative Nat) (fun _ => 1) table
    ⟨by intro o1 o2 r _ out _; cases out <;> simp⟩ false (2 * ops.length) ops
  have ht : ∃ r, table.applyRules false (2 * ops.length) ops = some r ∧
      (∀ e, r = .error e → ¬ Fits (nonident ops)) ∧ ∀ l, r = .ok l → nonident l = nonident ops := by
    unfold Table.applyRules
    rw [if_neg (by simp)]
    split
    · exact ⟨_, rfl, by simp, by rintro l ⟨⟩; rfl⟩
    · exact loop_total _ ⟨ops, ops.length - 1⟩ (by unfold Valid; dsimp only; omega) (by dsimp only; omega)
  obtain ⟨r, hr, he, hok⟩ := ht
  refine ⟨r, hr, fun l hl => ?_, he⟩
  rw [← hok l hl]
  have := hC r hr
  subst hl
  exact fits_nonident l (this.2 rfl)

theorem fits_iff_placed (l : List (Op K)) : Fits l ↔ Placed l := by
  constructor
  · intro h
    refine ⟨fun p v q e => ?_, fun p v q e => ?_⟩
    · match q with
      | [] => rfl
      | b :: q => exact absurd rfl ((h p _ b q e).1 v)
    · rcases List.eq_nil_or_concat p with rfl | ⟨p', a, rfl⟩
      · rfl
      · exact absurd rfl ((h p' a _ q (by simpa using e)).2 v)
  · rintro ⟨h1, h2⟩ p a b q e
    refine ⟨?_, ?_⟩
    · rintro v rfl
      exact absurd (h1 p v (b :: q) e) (by simp)
    · rintro v rfl
      exact absurd (h2 (p ++ [a]) v q (by simpa using e)) (by simp)

/-! ### The scalars -/

/-- What the rules of the variables see of an operand. -/
def tag : Op K → Op Unit
  | .lin _ _ n => .lin true () n
  | .hom _ => .hom ()
  | .ident => .ident
  | .var v => .var v
  | .tvar v => .tvar v

theorem nonident_tag (l : List (Op K)) : nonident (l.map tag) = (nonident l).map tag := by
  induction l with
  | nil => rfl
  | cons o l ih =>
    cases o <;> simp [nonident, tag] <;> simpa [nonident] using ih

theorem fits_tag (l : List (Op K)) : Fits (l.map tag) ↔ Fits l := by
  constructor
  · intro h p a b q e
    have := h (p.map tag) (tag a) (tag b) (q.map tag) (by rw [e]; simp)
    refine ⟨?_, ?_⟩
    · rintro v rfl; exact this.1 v rfl
    · rintro v rfl; exact this.2 v rfl
  · intro h p a b q e
    obtain ⟨p', r, e1, rfl, e2⟩ := List.map_eq_append_iff.1 e
    obtain ⟨a', r', rfl, rfl, e3⟩ := List.map_eq_cons_iff.1 e2
    obtain ⟨b', q', rfl, rfl, e4⟩ := List.map_eq_cons_iff.1 e3
    have := h p' a' b' q' e1
    refine ⟨fun v hv => ?_, fun v hv => ?_⟩
    · cases a' <;> simp [tag] at hv
      subst hv
      exact this.1 _ rfl
    · cases b' <;> simp [tag] at hv
      subst hv
      exact this.2 _ rfl

theorem fits_hom (c : K) (l : List (Op K)) : Fits (.hom c :: l) ↔ Fits l ∧ ¬ Transposed l := by
  constructor
  · intro h
    have hl : Fits l := fun p a b q e => h (.hom c :: p) a b q (by rw [e]; rfl)
    refine ⟨hl, ?_⟩
    rintro ⟨v, hv⟩
    obtain ⟨p, q, e⟩ := List.append_of_mem hv
    have hp := ((fits_iff_placed l).1 hl).2 p v q e
    subst hp
    exact (h [] (.hom c) (.tvar v) q (by rw [e]; rfl)).2 v rfl
  · rintro ⟨h, ht⟩ p a b q e
    match p with
    | [] =>
      injection e with e1 e2
      subst e1
      refine ⟨by simp, ?_⟩
      rintro v rfl
      exact ht ⟨v, by rw [e2]; simp⟩
    | x :: p =>
      injection e with e1 e2
      exact h p a b q e2

section
variable [CommGroup K] [DecidableEq K]

/-- An operand after the collection of the scalars. -/
def collected : Op K → Op K
  | .hom _ => .ident
  | o => o

theorem collect_eq (c : K) (ops : List (Op K)) : htable.collect c ops = (c * scalars ops, ops.map collected) := by
  induction ops generalizing c with
  | nil => simp [HTable.collect, scalars]
  | cons o l ih =>
    unfold HTable.collect
    cases o <;> simp [htable, scalars, collected] <;> simp [htable] at ih <;> simp [ih, scalars, mul_assoc]

theorem nonident_collected (ops : List (Op K)) : nonident (ops.map collected) = words ops := by
  induction ops with
  | nil => rfl
  | cons o l ih => cases o <;> simp [nonident, words, collected] <;> simpa [nonident, words] using ih

theorem absorb_eq (o : Op K) (c : K) :
    htable.absorb o c = match o with | .lin true d n => some (.lin true (d * c) n) | _ => none := by
  rcases o with ⟨_ | _, d, n⟩ | _ | _ | _ | _ <;> simp [HTable.absorb, htable]

theorem absorbFirst_none (c : K) (ops : List (Op K)) : htable.absorbFirst c ops = none ↔ ¬ Absorbing ops := by
  induction ops with
  | nil => simp [HTable.absorbFirst, Absorbing]
  | cons o l ih =>
    unfold HTable.absorbFirst
    rw [absorb_eq]
    rcases o with ⟨_ | _, d, n⟩ | _ | _ | _ | _
    · simpa [htable, Absorbing] using ih
    · refine iff_of_false (by simp [htable]) (fun h => h ⟨d, n, List.mem_cons_self⟩)
    · simpa [htable, Absorbing] using ih
    · simpa [htable, Absorbing] using ih
    · simpa [htable, Absorbing] using ih
    · simpa [htable, Absorbing] using ih

theorem absorbFirst_tag (c : K) (ops res : List (Op K)) (h : htable.absorbFirst c ops = some res) : res.map tag = ops.map tag := by
  induction ops generalizing res with
  | nil => simp [HTable.absorbFirst] at h
  | cons o l ih =>
    unfold HTable.absorbFirst at h
    rw [absorb_eq] at h
    have pass : ∀ res, (htable.absorbFirst c l).map (o :: ·) = some res → res.map tag = (o :: l).map tag := by
      intro res h
      rw [Option.map_eq_some_iff] at h
      obtain ⟨r, hr, rfl⟩ := h
      simp [ih r hr]
    split at h
    · exact pass res h
    · rcases o with ⟨_ | _, d, n⟩ | _ | _ | _ | _
      · exact pass res h
      · simp at h
        subst h
        simp [tag]
      · exact pass res h
      · exact pass res h
      · exact pass res h
      · exact pass res h

theorem groupby_all (o : Op K) (l : List (Op K)) : groupby (fun _ => true) (o :: l) = [(true, o :: l)] := by
  induction l generalizing o with
  | nil => rfl
  | cons x l ih =>
    rw [groupby, ih]
    rfl

theorem applyHomothety_eq (ops : List (Op K)) : htable.applyHomothety ops = htable.applyLinear ops := by
  cases ops with
  | nil => rfl
  | cons o l =>
    unfold HTable.applyHomothety
    rw [show (htable (K := K)).linear = fun _ => true from rfl, groupby_all]
    simp

theorem absorbing_collected (ops : List (Op K)) : Absorbing (ops.map collected) ↔ Absorbing ops := by
  unfold Absorbing
  constructor
  · rintro ⟨c, n, h⟩
    obtain ⟨o, ho, e⟩ := List.mem_map.1 h
    cases o <;> simp [collected] at e
    obtain ⟨rfl, rfl, rfl⟩ := e
    exact ⟨_, _, ho⟩
  · rintro ⟨c, n, h⟩
    exact ⟨c, n, List.mem_map.2 ⟨_, h, rfl⟩⟩

theorem transposed_words (ops : List (Op K)) : Transposed (words ops) ↔ Transposed ops := by
  simp [Transposed, words, List.mem_filter]

theorem fits_words (ops : List (Op K)) :
    Fits (nonident (htable.applyHomothety ops)) ↔ Placed (words ops) ∧ (scalars ops = 1 ∨ Absorbing ops ∨ ¬ Transposed ops) := by
  rw [applyHomothety_eq]
  unfold HTable.applyLinear
  split
  · rename_i hl
    have hsmall : ∀ l : List (Op K), l.length ≤ 1 → Fits l := by
      intro l h p a b q e
      rw [e] at h
      simp at h
      omega
    constructor
    · intro _
      refine ⟨(fits_iff_placed _).1 (hsmall _ ((List.length_filter_le _ _).trans hl)), ?_⟩
      match ops, hl with
      | [], _ => left; rfl
      | [.tvar v], _ => left; simp [scalars]
      | [.lin _ _ _], _ => left; simp [scalars]
      | [.ident], _ => left; simp [scalars]
      | [.var v], _ => left; simp [scalars]
      | [.hom c], _ => right; right; simp [Transposed]
    · intro _
      exact hsmall _ ((List.length_filter_le _ _).trans hl)
  · rw [collect_eq]
    dsimp only
    rw [one_mul]
    split
    · rename_i h1
      rw [nonident_collected, fits_iff_placed]
      simp [h1]
    · rename_i h1
      split
      · rename_i res hres
        have ha : Absorbing ops := by
          by_contra hn
          rw [(absorbFirst_none _ _).2 (by rwa [absorbing_collected])] at hres
          cases hres
        rw [← fits_tag, ← nonident_tag, absorbFirst_tag _ _ _ hres, nonident_tag, fits_tag, nonident_collected, fits_iff_placed]
        simp [ha]
      · rename_i hres
        have ha : ¬ Absorbing ops := by
          rw [← absorbing_collected]
          exact (absorbFirst_none _ _).1 hres
        rw [nonident_cons _ _ (by simp [htable]), show htable.mkHomothety (scalars ops) = Op.hom (scalars ops) from rfl, fits_hom, nonident_collected,
          fits_iff_placed, transposed_words]
        simp [ha, h1]

/-! ### Property C121 -/

/-- C121: a composition is built when the variables are on the right, the transposed variables on the left, and no scalar is left in front of a transposed variable, otherwise
it is refused. -/
theorem C121_built_partial (ops : List (Op K)) :
    ((∃ res, compose ops = .op res) ↔ Placed (words ops) ∧ (scalars ops = 1 ∨ Absorbing ops ∨ ¬ Transposed ops)) ∧
    (compose ops = .raised ↔ ¬(Placed (words ops) ∧ (scalars ops = 1 ∨ Absorbing ops ∨ ¬ Transposed ops))) := by
  rw [← fits_words]
  obtain ⟨r, hr, hok, herr⟩ := applyRules_iff (htable.applyHomothety ops)
  unfold compose
  rw [hr]
  cases r with
  | ok l => simp [hok l rfl]
  | error e => simp [herr e rfl]

theorem table_sound {M : Type} [Monoid M] (I : Meaning K M) : Sound I.operand (table (K := K)) := by
  refine ⟨?_⟩
  intro o1 o2 r hr out h
  cases o1 <;> cases o2 <;> simp [table] at hr <;>
    first
      | (subst hr; simp only [identityLeft, identityRight, variableLeft, transposeRight, Option.some.injEq] at h; subst h; simp [table, Meaning.operand]; done)
      | (rcases hr with rfl | rfl <;> simp only [identityLeft, identityRight, variableLeft, transposeRight, Option.some.injEq] at h <;> subst h <;> simp [table, Meaning.operand])

theorem htable_sound {M : Type} [Monoid M] (I : Meaning K M) : HSound I.scalar I.operand (htable (K := K)) where
  linear := fun o _ c => I.central c _
  homothety := by
    intro o c h
    cases o <;> simp [htable] at h
    subst h; rfl
  toIdentity := fun _ => rfl
  identityLinear := fun _ => rfl
  mkHomothety := fun _ => rfl
  left := by
    intro o r hr c new e
    rcases o with ⟨_ | _, d, n⟩ | _ | _ | _ | _ <;> simp [htable] at hr
    subst hr
    cases e
    simp only [Meaning.operand, map_mul]
    rw [mul_assoc, I.central c, ← mul_assoc]
  right := by
    intro o r hr
    simp [htable] at hr

/-- C121: a composition that is built stands for the product of its operands, whatever the variables stand for. -/
theorem C121_meaning {M : Type} [Monoid M] (I : Meaning K M) (ops res : List (Op K)) (h : compose ops = .op res) : I.value res = I.value ops := by
  unfold compose at h
  split at h
  · rename_i l hl
    cases h
    have h1 := (C14_simplification_effect I.operand table (table_sound I) _ _ _ _ hl).1
    have h2 := C16_scalars_moved I.scalar I.operand htable (htable_sound I) ops
    exact h1.trans h2
  · cases h
  · cases h

theorem value_append {M : Type} [Monoid M] (I : Meaning K M) (l m : List (Op K)) : I.value (l ++ m) = I.value l * I.value m := by
  simp [Meaning.value]

theorem value_cons {M : Type} [Monoid M] (I : Meaning K M) (o : Op K) (m : List (Op K)) : I.value (o :: m) = I.operand o * I.value m := by
  simp [Meaning.value]

theorem value_nil {M : Type} [Monoid M] (I : Meaning K M) : I.value [] = 1 := rfl

theorem operand_asOp {M : Type} [Monoid M] (I : Meaning K M) (c : K) : I.operand (asOp c) = I.scalar c := by
  unfold asOp
  split
  · rename_i h; simp [h, Meaning.operand]
  · rfl

theorem value_homothety {M : Type} [Monoid M] (I : Meaning K M) (ops : List (Op K)) (h : isHomothety ops = true) (m : M) :
    I.value ops * m = m * I.value ops := by
  unfold isHomothety at h
  split at h
  · simpa [Meaning.value, Meaning.operand] using I.central _ m
  · simp [Meaning.value, Meaning.operand]
  · cases h

/-- C121: a product that is a composition stands for the product of the factors. -/
theorem C121_product {M : Type} [Monoid M] (I : Meaning K M) (a b : Factor K) (res : List (Op K)) (h : mul a b = .op res) :
    I.value res = I.factor a * I.factor b := by
  unfold mul at h
  split at h
  · cases h
    simp [value_cons, value_nil, operand_asOp, Meaning.factor]
  · rw [C121_meaning I _ _ h]
    simp [value_cons, value_nil, operand_asOp, Meaning.factor]
  · rw [C121_meaning I _ _ h]
    simp [value_cons, value_nil, operand_asOp, Meaning.factor, I.central]
  · rw [C121_meaning I _ _ h]
    simp [value_cons, operand_asOp, Meaning.factor]
  · unfold mulVariable at h
    split at h
    · rw [C121_meaning I _ _ h]
      simp [value_cons, value_nil, operand_asOp, Meaning.factor, I.central]
    · cases h
    · rw [C121_meaning I _ _ h]
      simp [value_cons, value_nil, Meaning.factor]
    · split at h
      · rename_i hh
        rw [C121_meaning I _ _ h, value_append, value_homothety I _ hh]
        rfl
      · cases h
  · unfold mulTranspose at h
    split at h
    · rw [C121_meaning I _ _ h]
      simp [value_cons, value_nil, operand_asOp, Meaning.factor, I.central]
    · cases h
    · rw [C121_meaning I _ _ h]
      simp [value_cons, value_nil, Meaning.factor]
    · split at h
      · rename_i hh
        rw [C121_meaning I _ _ h, value_append, value_homothety I _ hh]
        rfl
      · rw [C121_meaning I _ _ h]
        simp [value_cons, value_nil, Meaning.factor]
  · rw [C121_meaning I _ _ h, value_append]
    rfl
  · unfold rmulTranspose at h
    dsimp only at h
    split at h
    · rename_i hh
      rw [C121_meaning I _ _ h, value_cons]
      have := value_homothety I _ hh (I.value [.tvar ‹_›])
      simp only [value_cons, value_nil, mul_one] at this
      simp only [Meaning.factor, value_cons, value_nil, mul_one, this]
    · cases h
  · rw [C121_meaning I _ _ h, value_append]
    rfl
  · rw [C121_meaning I _ _ h, value_append]
    simp [value_cons, value_nil, operand_asOp, Meaning.factor]

/-- C121: the transpose of an operator stands for the transpose. -/
theorem C121_transpose {M : Type} [Monoid M] (I : Meaning K M) (t : Nat → Nat) (T : M → M) (h1 : T 1 = 1) (hm : ∀ a b, T (a * b) = T b * T a)
    (hc : ∀ c, T (I.scalar c) = I.scalar c) (hl : ∀ n, T (I.lin n) = I.lin (t n)) (hv : ∀ v, T (I.var v) = I.tvar v) (ht : ∀ v, T (I.tvar v) = I.var v)
    (ops res : List (Op K)) (h : transpose t ops = .op res) : I.value res = T (I.value ops) := by
  have ho : ∀ o : Op K, I.operand (o.transpose t) = T (I.operand o) := by
    intro o
    cases o <;> simp [Op.transpose, Meaning.operand, h1, hm, hc, hl, hv, ht, I.central]
  have hr : ∀ l : List (Op K), I.value (l.reverse.map (Op.transpose t)) = T (I.value l) := by
    intro l
    induction l with
    | nil => simp [value_nil, h1]
    | cons o l ih => rw [List.reverse_cons, List.map_append, value_append, ih, value_cons, hm]; simp [value_cons, value_nil, ho]
  unfold transpose at h
  split at h
  · cases h
    simp [value_cons, value_nil, ho]
  · rw [C121_meaning I _ _ h, hr]

/-- The operands of a factor. -/
def Factor.operands : Factor K → List (Op K)
  | .scalar c => [asOp c]
  | .op ops => ops

/-- An operator is not a composition of scalars only, as these are merged. -/
def Factor.Simplified : Factor K → Prop
  | .scalar _ => True
  | .op ops => ops ≠ [] ∧ (2 ≤ ops.length → words ops ≠ [])

theorem absorbing_words (ops : List (Op K)) : Absorbing (words ops) ↔ Absorbing ops := by
  simp [Absorbing, words, List.mem_filter]

theorem built_iff (l m : List (Op K)) (hw : words l = words m) (hs : scalars l = scalars m) :
    (∃ res, compose l = .op res) ↔ Placed (words m) ∧ (scalars m = 1 ∨ Absorbing m ∨ ¬ Transposed m) := by
  rw [(C121_built_partial l).1, hw, hs, ← absorbing_words l, ← absorbing_words m, ← transposed_words l, ← transposed_words m, hw]

theorem words_append (l m : List (Op K)) : words (l ++ m) = words l ++ words m := List.filter_append ..

theorem scalars_append (l m : List (Op K)) : scalars (l ++ m) = scalars l * scalars m := by simp [scalars]

theorem words_asOp (c : K) : words [asOp c] = [] := by
  unfold asOp
  split <;> rfl

theorem words_homothety (ops : List (Op K)) (h : isHomothety ops = true) : words ops = [] := by
  unfold isHomothety at h
  split at h
  · rfl
  · rfl
  · cases h

theorem homothety_of_words (ops : List (Op K)) (h : Factor.Simplified (.op ops)) (hw : words ops = []) : isHomothety ops = true := by
  obtain ⟨h0, h2⟩ := h
  match ops, h0 with
  | [o], _ => cases o <;> first | rfl | simp [words] at hw
  | a :: b :: l, _ => exact absurd hw (h2 (by simp))

theorem not_placed_var (v : Nat) (l : List (Op K)) (h : l ≠ []) : ¬ Placed (.var v :: l) := fun hp => h (hp.1 [] v l rfl)

theorem not_placed_tvar (v : Nat) (l : List (Op K)) (h : l ≠ []) : ¬ Placed (l ++ [.tvar v]) := fun hp => h (hp.2 l v [] rfl)

/-- C121: which products of two factors are compositions: those that make sense, provided that there is no scalar, or that it can be absorbed, when there is a transposed
variable. -/
theorem C121_product_partial (a b : Factor K) (ha : a.Simplified) (hb : b.Simplified) :
    (∃ res, mul a b = .op res) ↔
      Placed (words (a.operands ++ b.operands)) ∧
        (scalars (a.operands ++ b.operands) = 1 ∨ Absorbing (a.operands ++ b.operands) ∨ ¬ Transposed (a.operands ++ b.operands)) := by
  unfold mul
  split
  · rename_i c d
    refine iff_of_true ⟨_, rfl⟩ ⟨?_, ?_⟩
    · rw [words_append]
      simp only [Factor.operands, words_asOp]
      constructor <;> intro p v q e <;> simp at e
    · right; right
      rintro ⟨v, h⟩
      simp only [Factor.operands, asOp] at h
      split at h <;> split at h <;> simp at h
  · exact built_iff _ _ rfl rfl
  · refine built_iff _ _ ?_ ?_
    · rw [words_append]
      simp only [Factor.operands, words_asOp]
      rw [show ([Op.tvar _, asOp _] : List (Op K)) = [Op.tvar _] ++ [asOp _] from rfl, words_append, words_asOp, List.append_nil, List.nil_append]
    · simp [scalars, Factor.operands, mul_comm]
  · exact built_iff _ _ rfl rfl
  · rename_i v
    unfold mulVariable
    split
    · rename_i c
      refine built_iff _ _ ?_ ?_
      · rw [words_append]
        simp only [Factor.operands, words_asOp]
        rw [show ([asOp _, Op.var _] : List (Op K)) = [asOp _] ++ [Op.var _] from rfl, words_append, words_asOp, List.append_nil, List.nil_append]
      · simp [scalars, Factor.operands, mul_comm]
    · rename_i w
      refine iff_of_false (by simp) (fun h => not_placed_var v [.var w] (by simp) h.1)
    · exact built_iff _ _ rfl rfl
    · rename_i ops _ _
      split
      · rename_i hh
        refine built_iff _ _ ?_ ?_
        · simp only [Factor.operands, words_append, words_homothety ops hh, List.append_nil, List.nil_append]
        · simp only [Factor.operands, scalars_append, mul_comm]
      · rename_i hh
        refine iff_of_false (by simp) (fun h => ?_)
        have hw : words ops ≠ [] := fun hw => hh (homothety_of_words ops hb hw)
        rw [words_append] at h
        exact not_placed_var v (words ops) hw h.1
  · rename_i v
    unfold mulTranspose
    split
    · rename_i c
      refine built_iff _ _ ?_ ?_
      · rw [words_append]
        simp only [Factor.operands, words_asOp]
        rw [show ([asOp _, Op.tvar _] : List (Op K)) = [asOp _] ++ [Op.tvar _] from rfl, words_append, words_asOp, List.append_nil, List.nil_append]
      · simp [scalars, Factor.operands, mul_comm]
    · rename_i w
      refine iff_of_false (by simp) (fun h => not_placed_tvar w [.tvar v] (by simp) h.1)
    · exact built_iff _ _ rfl rfl
    · rename_i ops _ _
      split
      · rename_i hh
        refine built_iff _ _ ?_ ?_
        · simp only [Factor.operands, words_append, words_homothety ops hh, List.append_nil, List.nil_append]
        · simp only [Factor.operands, scalars_append, mul_comm]
      · exact built_iff _ _ rfl rfl
  · exact built_iff _ _ rfl rfl
  · rename_i ops v _ _
    unfold rmulTranspose
    dsimp only
    split
    · rename_i hh
      refine built_iff _ _ ?_ ?_
      · rw [show Op.tvar v :: ops = [Op.tvar v] ++ ops from rfl]
        simp only [Factor.operands, words_append, words_homothety ops hh, List.append_nil, List.nil_append]
      · rw [show Op.tvar v :: ops = [Op.tvar v] ++ ops from rfl]
        simp only [Factor.operands, scalars_append, mul_comm]
    · rename_i hh
      refine iff_of_false (by simp) (fun h => ?_)
      have hw : words ops ≠ [] := fun hw => hh (homothety_of_words ops ha hw)
      rw [words_append] at h
      exact not_placed_tvar v (words ops) hw h.1
  · exact built_iff _ _ rfl rfl
  · exact built_iff _ _ rfl rfl

theorem words_transpose (t : Nat → Nat) (ops : List (Op K)) : words (ops.map (Op.transpose t)) = (words ops).map (Op.transpose t) := by
  induction ops with
  | nil => rfl
  | cons o l ih => cases o <;> simp [words, Op.transpose] <;> simpa [words] using ih

theorem placed_transpose (t : Nat → Nat) (l : List (Op K)) (h : Placed l) : Placed (l.reverse.map (Op.transpose t)) := by
  constructor
  · intro p v q e
    obtain ⟨p', r, e1, rfl, e2⟩ := List.map_eq_append_iff.1 e
    obtain ⟨a, q', rfl, ha, rfl⟩ := List.map_eq_cons_iff.1 e2
    cases a <;> simp [Op.transpose] at ha
    rename_i w
    have := h.2 q'.reverse w p'.reverse (by rw [← List.reverse_reverse l, e1]; simp)
    simpa using this
  · intro p v q e
    obtain ⟨p', r, e1, rfl, e2⟩ := List.map_eq_append_iff.1 e
    obtain ⟨a, q', rfl, ha, rfl⟩ := List.map_eq_cons_iff.1 e2
    cases a <;> simp [Op.transpose] at ha
    rename_i w
    have := h.1 q'.reverse w p'.reverse (by rw [← List.reverse_reverse l, e1]; simp)
    simpa using this

/-- C121: an operator has a transpose if there is no scalar, if it can be absorbed or if there is no variable. -/
theorem C121_transpose_partial (t : Nat → Nat) (ops : List (Op K)) (h : Placed (words ops))
    (hs : scalars ops = 1 ∨ Absorbing ops ∨ ∀ v, .var v ∉ ops) : ∃ res, transpose t ops = .op res := by
  unfold transpose
  split
  · exact ⟨_, rfl⟩
  · refine (C121_built_partial _).1.2 ⟨?_, ?_⟩
    · rw [words_transpose, show words ops.reverse = (words ops).reverse from List.filter_reverse ..]
      exact placed_transpose t _ h
    · rcases hs with h1 | ⟨c, n, hm⟩ | hv
      · left
        rw [← h1]
        unfold scalars
        rw [List.map_map, ((List.reverse_perm ops).map _).prod_eq]
        congr 1
        refine List.map_congr_left (fun o _ => ?_)
        cases o <;> rfl
      · right; left
        exact ⟨c, t n, List.mem_map.2 ⟨_, List.mem_reverse.2 hm, rfl⟩⟩
      · right; right
        rintro ⟨v, hm⟩
        obtain ⟨o, ho, e⟩ := List.mem_map.1 hm
        cases o <;> simp [Op.transpose] at e
        subst e
        exact hv _ (List.mem_reverse.1 ho)

/-! ### What is refused -/

theorem scaled_raises (c : K) (hc : c ≠ 1) (v : Nat) : compose [.hom c, .tvar v] = .raised ∧ compose [.tvar v, .hom c] = .raised := by
  constructor <;> refine (C121_built_partial _).2.2 ?_ <;> rintro ⟨-, h⟩ <;> simp [scalars, Absorbing, Transposed, hc] at h

/-- C121: a transposed variable cannot be multiplied by a scalar, on either side. -/
theorem C121_scalar_fails (c : K) (hc : c ≠ 1) (v : Nat) :
    mul (.scalar c) (.op [.tvar v]) = .raised ∧ mul (.op [.tvar v]) (.scalar c) = .raised ∧ mul (.op [.hom c]) (.op [.tvar v]) = .raised := by
  refine ⟨?_, ?_, ?_⟩
  · simpa [mul, rmulTranspose, asOp, hc] using (scaled_raises c hc v).2
  · simpa [mul, mulTranspose, asOp, hc] using (scaled_raises c hc v).1
  · simpa [mul, rmulTranspose, isHomothety] using (scaled_raises c hc v).2

/-- C121: the product of a variable and a transposed variable cannot be built. -/
theorem C121_outer_fails (v w : Nat) : mul (.op [.var v]) (.op [.tvar w]) = (.raised : Res K) := by
  refine (C121_built_partial _).2.2 ?_
  rintro ⟨h, -⟩
  exact absurd (h.1 [] v [.tvar w] rfl) (by simp)

/-- C121: a variable multiplied by a scalar can be built but it has no transpose. -/
theorem C121_transpose_fails (c : K) (hc : c ≠ 1) (v : Nat) (t : Nat → Nat) :
    (∃ res, mul (.scalar c) (.op [.var v]) = .op res) ∧ transpose t [.hom c, .var v] = .raised := by
  refine ⟨?_, (scaled_raises c hc v).2⟩
  refine (C121_built_partial _).1.2 ⟨?_, ?_⟩
  · simp [asOp, hc, words]
    constructor <;> intro p w q e <;> cases p <;> simp_all
  · simp [asOp, hc, Transposed]

/-- C121: a scalar times a quadratic form can be built if the operator absorbs scalars only. -/
theorem C121_quadratic_fails (c d : K) (hc : c ≠ 1) (v n : Nat) :
    mul (.scalar c) (.op [.tvar v, .lin false d n, .var v]) = .raised ∧
    ∃ res, mul (.scalar c) (.op [.tvar v, .lin true d n, .var v]) = .op res := by
  constructor
  · refine (C121_built_partial _).2.2 ?_
    rintro ⟨-, h⟩
    simp [asOp, hc, scalars, Absorbing, Transposed] at h
  · refine (C121_built_partial _).1.2 ⟨?_, ?_⟩
    · simp [asOp, hc, words]
      constructor
      · intro p w q e
        rcases p with _ | ⟨a, _ | ⟨b, _ | ⟨x, p⟩⟩⟩ <;> simp_all
      · intro p w q e
        rcases p with _ | ⟨a, _ | ⟨b, _ | ⟨x, p⟩⟩⟩ <;> simp_all
    · exact Or.inr (Or.inl ⟨d, n, by simp⟩)

/-- C121: a variable on the left of a linear operator is not refused: the result is an element-wise product. -/
theorem C121_right_fails (a : Bool) (c : K) (v n : Nat) :
    mul (.op [.var v]) (.op [.lin a c n]) = .times [.lin a c n] [.var v] ∧ compose [.var v, .lin a c n] = .raised := by
  refine ⟨rfl, (C121_built_partial _).2.2 ?_⟩
  rintro ⟨h, -⟩
  exact absurd (h.1 [] v [.lin a c n] rfl) (by simp)

end

/-! ### Examples -/

/-- An example of meanings: a scalar and a word. -/
def letters : Meaning ℚˣ (ℚˣ × FreeMonoid (Op Unit)) where
  scalar := MonoidHom.inl _ _
  central := fun c m => by ext <;> simp [mul_comm]
  lin := fun n => (1, FreeMonoid.of (.lin true () n))
  var := fun v => (1, FreeMonoid.of (.var v))
  tvar := fun v => (1, FreeMonoid.of (.tvar v))

def two : ℚˣ := Units.mk0 2 (by decide)

example : mul (.scalar two) (.op [.var 1]) = .op [.hom two, .var 1] := by decide +kernel
example : mul (.op [.var 1]) (.scalar two) = .op [.hom two, .var 1] := by decide +kernel
example : mul (.op [.lin false two 0]) (.op [.var 1]) = .op [.lin false two 0, .var 1] := by decide +kernel
example : mul (.op [.tvar 1]) (.op [.lin true two 0]) = .op [.tvar 1, .lin true two 0] := by decide +kernel
example : mul (.op [.tvar 1, .lin true two 0]) (.op [.var 1]) = .op [.tvar 1, .lin true two 0, .var 1] := by decide +kernel
example : transpose (fun n => n + 5) [.lin true two 0, .var 1] = .op [.tvar 1, .lin true two 5] := by decide +kernel
example : letters.value [.tvar 1, .lin true two 0, .var 1] = letters.factor (.op [.tvar 1, .lin true two 0]) * letters.factor (.op [.var 1]) :=
  C121_product letters _ _ _ (by decide +kernel)
example : ∃ res, mul (.op [.tvar 1]) (.op [.lin false two 0, .var 2]) = .op res :=
  (C121_product_partial (.op [.tvar 1]) (.op [.lin false two 0, .var 2]) ⟨by simp, by simp⟩ ⟨by simp, by simp [words]⟩).2
    ⟨by constructor <;> intro p v q e <;> rcases p with _ | ⟨a, _ | ⟨b, _ | ⟨c, p⟩⟩⟩ <;> simp_all [words, Factor.operands], by simp [scalars, Factor.operands]⟩
example : ∃ res, transpose id [.tvar 1, .lin true two 0, .var 1] = .op res :=
  C121_transpose_partial id _
    (by constructor <;> intro p v q e <;> rcases p with _ | ⟨a, _ | ⟨b, _ | ⟨c, p⟩⟩⟩ <;> simp_all [words]) (Or.inl (by simp [scalars]))
example : ∃ res, mul (.scalar two) (.op [.tvar 1, .lin true two 0, .var 1]) = .op res :=
  (C121_quadratic_fails two two (by decide) 1 0).2
example : compose [.lin true two 0, .var 1, .hom two, .tvar 2] = .raised :=
  (C121_built_partial _).2.2 (fun h => absurd (h.1.1 [.lin true two 0] 1 [.tvar 2] (by decide)) (by simp))

end Verif.Simplify.Variables
