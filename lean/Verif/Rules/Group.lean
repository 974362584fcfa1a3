import Mathlib.Data.Complex.Basic
import Mathlib.LinearAlgebra.Matrix.NonsingularInverse
import Mathlib.LinearAlgebra.Matrix.ConjTranspose
import Mathlib.Tactic.FinCases

/-
Model of the operators that group others in compositions: src/pyoperators/core.py:2824-2891 (`GroupOperator`), with the rules of associativity of the compositions (2302-2327) and the loop that applies them (2182-2274);
and property C98.
-/

namespace Verif.Group

/-! ### Model: compositions -/

/-- The operands of a composition that has been simplified: operators (with an identifier and a data type) and groups of operators, with their own data type. -/
structure Leaf where
  id : Nat
  dtype : Nat
deriving DecidableEq

inductive Atom where
  | leaf (a : Leaf)
  | group (inside : List Leaf) (dtype : Nat)
deriving DecidableEq

/-- What the user composes: operators, groups, and the results of other compositions. -/
inductive Op where
  | atom (a : Atom)
  | comp (ops : List Atom)
deriving DecidableEq

/-- The attribute `operands` of an instance of CompositionOperator, which groups are. -/
def Atom.operands : Atom → List Atom
  | .leaf a => [.leaf a]
  | .group inside _ => inside.map .leaf

/-- The first rule that applies to two neighbours: src/pyoperators/core.py:2310-2327 (the rules of compositions), 2886-2888 (the rules deleted for groups) and 2217-2230 (their order: the one for CompositionOperator is before those for Operator;
`isinstance(o2, CompositionOperator)` is true of groups: src/pyoperators/rules.py:246-250).  The operators have no rule of their own; the compositions that the rules build are not simplified further, since their operands are not compositions. -/
def merge : Op → Op → Option Op
  | .comp l, .comp l' => some (.comp (l ++ l'))
  | .comp l, .atom (.group inside d) => some (.comp (l ++ (Atom.group inside d).operands))
  | .comp l, .atom (.leaf a) => some (.comp (l ++ [.leaf a]))
  | .atom a, .comp l => some (.comp (a :: l))
  | .atom _, .atom _ => none

/-- The operands i + 1, ... are `right`, which are merged with the operand i as often as a rule applies (`if consumed and i < len(ops) - 1: continue`): src/pyoperators/core.py:2213-2263. -/
def absorb : Op → List Op → List Op
  | o, [] => [o]
  | o, o' :: right =>
    match merge o o' with
    | some n => absorb n right
    | none => o :: o' :: right

/-- The loop over the pairs of operands, from the last to the first: src/pyoperators/core.py:2211-2263. -/
def applyRules : List Op → List Op
  | [] => []
  | o :: ops => absorb o (applyRules ops)

/-- `CompositionOperator(ops).operands`: src/pyoperators/core.py:2287-2301; a single composition is copied. -/
def compose (ops : List Op) : List Atom :=
  match applyRules ops with
  | [.comp l] => l
  | l => l.flatMap fun o => match o with | .atom a => [a] | .comp l => l

/-- `_find_common_type`, for data types ordered by their rank: src/pyoperators/core.py:756-762. -/
def dtype (l : List Atom) : Nat := (l.map fun a => match a with | .leaf a => a.dtype | .group _ d => d).foldr max 0

/-! ### Specification: compositions -/

/-- The operators and groups that the user composes, from left to right. -/
def Op.parts : Op → List Atom
  | .atom a => [a]
  | .comp l => l

def Op.isComp : Op → Bool
  | .atom _ => false
  | .comp _ => true

/-- The operators that are applied. -/
def Atom.leaves : Atom → List Leaf
  | .leaf a => [a]
  | .group inside _ => inside

/-! ### Proofs: compositions -/

theorem absorb_parts (o : Op) (right : List Op) (h : ∀ x ∈ right, x.isComp = false) :
    (o.isComp = false → absorb o right = o :: right) ∧ (o.isComp = true → absorb o right = [.comp (o.parts ++ right.flatMap fun x => x.parts.flatMap Atom.operands)]) := by
  induction right generalizing o with
  | nil =>
    refine ⟨fun _ => rfl, fun ho => ?_⟩
    cases o with
    | atom => cases ho
    | comp l => simp [absorb, Op.parts]
  | cons x right ih =>
    cases x with
    | comp l => exact absurd (h (.comp l) List.mem_cons_self) (by simp [Op.isComp])
    | atom a =>
      have hr : ∀ x ∈ right, x.isComp = false := fun x hx => h x (by simp [hx])
      constructor
      · intro ho
        cases o with
        | atom b => cases b <;> simp [absorb, merge]
        | comp l => cases ho
      · intro ho
        cases o with
        | atom b => cases ho
        | comp l =>
          cases a with
          | leaf a =>
            simp only [absorb, merge]
            rw [(ih (.comp (l ++ [Atom.leaf a])) hr).2 rfl]
            simp [Op.parts, Atom.operands]
          | group inside d =>
            simp only [absorb, merge]
            rw [(ih (.comp (l ++ (Atom.group inside d).operands)) hr).2 rfl]
            simp [Op.parts, Atom.operands]

theorem absorb_comp (o : Op) (l : List Atom) : absorb o [.comp l] = [.comp (o.parts ++ l)] := by
  cases o <;> simp [absorb, merge, Op.parts]

/-- The loop over operands whose last composition is followed by `right`. -/
theorem applyRules_spec (left : List Op) (l : List Atom) (right : List Op) (h : ∀ x ∈ right, x.isComp = false) :
    applyRules right = right ∧
    applyRules (left ++ .comp l :: right) = [.comp (left.flatMap Op.parts ++ l ++ right.flatMap fun x => x.parts.flatMap Atom.operands)] := by
  have h1 : ∀ right : List Op, (∀ x ∈ right, x.isComp = false) → applyRules right = right := by
    intro right
    induction right with
    | nil => intro _; rfl
    | cons x right ih =>
      intro h
      rw [applyRules, ih fun y hy => h y (by simp [hy]), (absorb_parts x right fun y hy => h y (by simp [hy])).1 (h x (by simp))]
  refine ⟨h1 right h, ?_⟩
  induction left with
  | nil =>
    simp only [List.nil_append, applyRules, h1 right h]
    rw [(absorb_parts (.comp l) right h).2 rfl]
    rfl
  | cons o left ih =>
    simp only [List.cons_append, applyRules, ih, absorb_comp, List.flatMap_cons, List.append_assoc]

theorem split_last (ops : List Op) : (∀ x ∈ ops, x.isComp = false) ∨ ∃ left l right, ops = left ++ .comp l :: right ∧ ∀ x ∈ right, x.isComp = false := by
  induction ops with
  | nil => exact Or.inl (by simp)
  | cons o ops ih =>
    rcases ih with ih | ⟨left, l, right, e, h⟩
    · cases o with
      | atom a => exact Or.inl (by simpa [Op.isComp] using ih)
      | comp l => exact Or.inr ⟨[], l, ops, rfl, ih⟩
    · exact Or.inr ⟨o :: left, l, right, by rw [e]; rfl, h⟩

theorem compose_atoms (ops : List Op) (h : ∀ x ∈ ops, x.isComp = false) : compose ops = ops.flatMap Op.parts := by
  unfold compose
  rw [(applyRules_spec [] [] ops h).1]
  have : (ops.flatMap fun o => match o with | .atom a => [a] | .comp l => l) = ops.flatMap Op.parts := by
    congr 1
  split
  · simp [Op.isComp] at h
  · exact this

theorem compose_comp (left : List Op) (l : List Atom) (right : List Op) (h : ∀ x ∈ right, x.isComp = false) :
    compose (left ++ .comp l :: right) = left.flatMap Op.parts ++ l ++ right.flatMap fun x => x.parts.flatMap Atom.operands := by
  unfold compose
  rw [(applyRules_spec left l right h).2]

/-- **C98 (operators).** For all compositions of operators, groups and compositions: the operators that are applied, in the groups and outside, are those that are composed, in the same order. -/
theorem C98_order (ops : List Op) : (compose ops).flatMap Atom.leaves = ops.flatMap fun o => o.parts.flatMap Atom.leaves := by
  have hop : ∀ a : Atom, a.operands.flatMap Atom.leaves = a.leaves := by
    intro a
    cases a with
    | leaf a => rfl
    | group inside d =>
      simp only [Atom.operands, Atom.leaves]
      induction inside with
      | nil => rfl
      | cons x xs ih => rw [List.map_cons, List.flatMap_cons, ih]; rfl
  rcases split_last ops with h | ⟨left, l, right, e, h⟩
  · rw [compose_atoms ops h, List.flatMap_assoc]
  · subst e
    rw [compose_comp left l right h]
    simp only [List.flatMap_append, List.flatMap_cons, List.flatMap_assoc, hop, Op.parts, List.append_assoc]

/-- **C98 (groups).** Composing groups with operators, groups and compositions keeps the groups as operands, so that their data type is not lost, unless a composition is on their left and none on their right.
Missing: the groups that are on the right of the last composition (see `C98_dissolved_fails`). -/
theorem C98_kept_partial (ops : List Op)
    (h : ∀ left l right, ops = left ++ .comp l :: right → (∀ x ∈ right, x.isComp = false) → ∀ x ∈ right, ∀ inside d, x ≠ .atom (.group inside d)) :
    compose ops = ops.flatMap Op.parts := by
  rcases split_last ops with h' | ⟨left, l, right, e, h'⟩
  · exact compose_atoms ops h'
  · have hg := h left l right e h'
    subst e
    rw [compose_comp left l right h', List.flatMap_append, List.flatMap_cons, List.append_assoc]
    congr 1
    congr 1
    clear h
    induction right with
    | nil => rfl
    | cons x right ih =>
      rw [List.flatMap_cons, List.flatMap_cons, ih (fun y hy => h' y (by simp [hy])) fun y hy => hg y (by simp [hy])]
      congr 1
      cases x with
      | comp l => exact absurd (h' (.comp l) List.mem_cons_self) (by simp [Op.isComp])
      | atom a =>
        cases a with
        | leaf a => rfl
        | group inside d => exact absurd rfl (hg (.atom (.group inside d)) List.mem_cons_self inside d)

/-- The data type of an operator, and the one given to a group. -/
def Atom.rank : Atom → Nat
  | .leaf a => a.dtype
  | .group _ d => d

/-- **C98 (groups).** The data type of a composition is the largest of those of its operands, in which the groups count with their own data type. -/
theorem C98_dtype (l : List Atom) (h : l ≠ []) : (∀ a ∈ l, a.rank ≤ dtype l) ∧ ∃ a ∈ l, a.rank = dtype l := by
  have e : ∀ l : List Atom, dtype l = (l.map Atom.rank).foldr max 0 := fun l => by
    rw [dtype]
    congr 1
  induction l with
  | nil => exact absurd rfl h
  | cons a l ih =>
    have e' : dtype (a :: l) = max a.rank (dtype l) := by rw [e, e]; rfl
    rw [e']
    cases l with
    | nil => exact ⟨by simp, a, by simp, by rw [e]; simp⟩
    | cons b l =>
      obtain ⟨h1, c, hc, h2⟩ := ih (by simp)
      refine ⟨fun x hx => ?_, ?_⟩
      · rcases List.mem_cons.mp hx with rfl | hx
        · exact le_max_left _ _
        · exact le_trans (h1 x hx) (le_max_right _ _)
      · rcases le_total a.rank (dtype (b :: l)) with hle | hle
        · exact ⟨c, List.mem_cons_of_mem _ hc, by rw [max_eq_right hle]; exact h2⟩
        · exact ⟨a, List.mem_cons_self, (max_eq_left hle).symm⟩

example : dtype (compose [.atom (.leaf ⟨1, 3⟩), .atom (.group [⟨2, 0⟩, ⟨3, 0⟩] 7)]) = 7 := by decide

/-- `A * G`, `G * A * B` and `A * (B * G)` -/
example : compose [.atom (.leaf ⟨1, 0⟩), .atom (.group [⟨2, 0⟩, ⟨3, 0⟩] 7)] = [.leaf ⟨1, 0⟩, .group [⟨2, 0⟩, ⟨3, 0⟩] 7] ∧
    compose [.comp (compose [.atom (.group [⟨2, 0⟩] 7), .atom (.leaf ⟨1, 0⟩)]), .atom (.leaf ⟨4, 0⟩)] = [.group [⟨2, 0⟩] 7, .leaf ⟨1, 0⟩, .leaf ⟨4, 0⟩] ∧
    compose [.atom (.leaf ⟨1, 0⟩), .comp (compose [.atom (.leaf ⟨4, 0⟩), .atom (.group [⟨2, 0⟩] 7)])] = [.leaf ⟨1, 0⟩, .leaf ⟨4, 0⟩, .group [⟨2, 0⟩] 7] := by decide

/-- **C98 (groups, negation).** `A * B * G`, which is `(A * B) * G`, dissolves the group and loses its data type, unlike `A * (B * G)`: the rule of the composition A * B for compositions on its right applies to groups, since they are instances of a
subclass of CompositionOperator. -/
theorem C98_dissolved_fails : ∃ (A B : Leaf) (inside : List Leaf) (d : Nat),
    compose [.comp (compose [.atom (.leaf A), .atom (.leaf B)]), .atom (.group inside d)] = .leaf A :: .leaf B :: inside.map Atom.leaf ∧
    compose [.atom (.leaf A), .comp (compose [.atom (.leaf B), .atom (.group inside d)])] = [.leaf A, .leaf B, .group inside d] ∧
    dtype (compose [.comp (compose [.atom (.leaf A), .atom (.leaf B)]), .atom (.group inside d)]) < d := by
  refine ⟨⟨1, 0⟩, ⟨2, 0⟩, [⟨3, 0⟩, ⟨4, 0⟩], 7, by decide, by decide, by decide⟩

/-! ### Model: associated operators -/

/-- The subjects of the unary rules. -/
inductive Sym where
  | C | T | H | I | IC | IT | IH
deriving DecidableEq

variable {n : Type} [Fintype n] [DecidableEq n]

abbrev Mat (n : Type) := Matrix n n ℂ

/-- The conjugate of an operator. -/
def conj (M : Mat n) : Mat n := M.map star

/-- `switch_T_H`: src/pyoperators/core.py:2838-2839. -/
def switch (real complexDtype : Bool) : Bool := real && complexDtype

/-- The name under which a rule is set: src/pyoperators/core.py:2840-2843. -/
def name (sw : Bool) : Sym → Sym
  | .T => if sw then .H else .T
  | .H => if sw then .T else .H
  | .IT => if sw then .IH else .IT
  | .IH => if sw then .IT else .IH
  | s => s

/-- The operands of the group that the rules return, in the order in which they are set: src/pyoperators/core.py:2845-2885.  The operands are matrices, all of the same dimension. -/
noncomputable def built : Sym → List (Mat n) → List (Mat n)
  | .C, l => l.map conj
  | .T, l => l.reverse.map Matrix.transpose
  | .H, l => l.reverse.map Matrix.conjTranspose
  | .I, l => l.reverse.map fun M => M⁻¹
  | .IC, l => l.reverse.map fun M => conj M⁻¹
  | .IT, l => l.map fun M => M⁻¹.transpose
  | .IH, l => l.map fun M => M⁻¹.conjTranspose

/-- The rules of a group, by subject. -/
noncomputable def rule (real complexDtype : Bool) (s : Sym) (l : List (Mat n)) : List (Mat n) :=
  match [Sym.C, .T, .H, .I, .IC, .IT, .IH].find? fun x => name (switch real complexDtype) x == s with
  | some x => built x l
  | none => []

/-! ### Specification: associated operators -/

/-- The matrices with the names of the subjects. -/
noncomputable def Sym.apply (P : Mat n) : Sym → Mat n
  | .C => fun i j => star (P i j)
  | .T => fun i j => P j i
  | .H => fun i j => star (P j i)
  | .I => P⁻¹
  | .IC => fun i j => star (P⁻¹ i j)
  | .IT => fun i j => P⁻¹ j i
  | .IH => fun i j => star (P⁻¹ j i)

/-! ### Proofs: associated operators -/

omit [DecidableEq n] in
theorem conj_mul (A B : Mat n) : conj (A * B) = conj A * conj B := by
  ext i j
  simp [conj, Matrix.mul_apply]

theorem conj_prod (l : List (Mat n)) : (l.map conj).prod = conj l.prod := by
  induction l with
  | nil => ext i j; simp [conj, Matrix.one_apply]
  | cons A l ih => rw [List.map_cons, List.prod_cons, List.prod_cons, conj_mul, ih]

theorem inv_prod (l : List (Mat n)) : (l.reverse.map fun M => M⁻¹).prod = l.prod⁻¹ := by
  induction l with
  | nil => simp
  | cons A l ih => rw [List.reverse_cons, List.map_append, List.prod_append, ih, List.prod_cons, Matrix.mul_inv_rev]; simp

theorem transpose_prod (l : List (Mat n)) : (l.reverse.map Matrix.transpose).prod = l.prod.transpose := by
  induction l with
  | nil => simp
  | cons A l ih => rw [List.reverse_cons, List.map_append, List.prod_append, ih, List.prod_cons, Matrix.transpose_mul]; simp

theorem adjoint_prod (l : List (Mat n)) : (l.reverse.map Matrix.conjTranspose).prod = l.prod.conjTranspose := by
  induction l with
  | nil => simp
  | cons A l ih => rw [List.reverse_cons, List.map_append, List.prod_append, ih, List.prod_cons, Matrix.conjTranspose_mul]; simp

theorem built_prod (s : Sym) (l : List (Mat n)) : (built s l).prod = s.apply l.prod := by
  cases s with
  | C => exact conj_prod l
  | T => exact transpose_prod l
  | H => exact adjoint_prod l
  | I => exact inv_prod l
  | IC =>
    have : (l.reverse.map fun M => conj M⁻¹) = (l.reverse.map fun M => M⁻¹).map conj := by rw [List.map_map]; rfl
    simp only [built, this]
    rw [conj_prod, inv_prod]
    rfl
  | IT =>
    have : (l.map fun M => M⁻¹.transpose) = ((l.reverse.map fun M => M⁻¹).reverse).map Matrix.transpose := by rw [← List.map_reverse, List.reverse_reverse, List.map_map]; rfl
    simp only [built, this]
    rw [transpose_prod, inv_prod]
    rfl
  | IH =>
    have : (l.map fun M => M⁻¹.conjTranspose) = ((l.reverse.map fun M => M⁻¹).reverse).map Matrix.conjTranspose := by rw [← List.map_reverse, List.reverse_reverse, List.map_map]; rfl
    simp only [built, this]
    rw [adjoint_prod, inv_prod]
    rfl

theorem conj_inv (P : Mat n) : conj P⁻¹ = (conj P)⁻¹ := by
  have h : ∀ M : Mat n, conj M = M.transpose.conjTranspose := fun M => rfl
  rw [h, h, Matrix.transpose_nonsing_inv, Matrix.conjTranspose_nonsing_inv]

/-- **C98 (associated operators).** For all numbers of operands: the conjugate, transpose, adjoint, inverse, ... of a group are groups whose product is the conjugate, transpose, ... of the product of the operands, whatever the data type, and the
real flag, provided that it is true of the product (though it may be of none of the operands, such as those of F.H * D * F). -/
theorem C98_associated (real complexDtype : Bool) (l : List (Mat n)) (hreal : real = true → ∀ i j, star (l.prod i j) = l.prod i j) (s : Sym) :
    (rule real complexDtype s l).prod = s.apply l.prod := by
  unfold rule
  cases hsw : switch real complexDtype with
  | false =>
    cases s <;> exact built_prod _ l
  | true =>
    have hr : real = true := by
      unfold switch at hsw
      rw [Bool.and_eq_true] at hsw
      exact hsw.1
    have hc : conj l.prod = l.prod := by
      ext i j
      exact hreal hr i j
    have hi : ∀ i j, star (l.prod⁻¹ i j) = l.prod⁻¹ i j := by
      intro i j
      have : conj l.prod⁻¹ = l.prod⁻¹ := by rw [conj_inv, hc]
      exact congrFun (congrFun this i) j
    cases s with
    | C => exact built_prod .C l
    | I => exact built_prod .I l
    | IC => exact built_prod .IC l
    | T =>
      refine (built_prod .H l).trans ?_
      ext i j
      exact hreal hr j i
    | H =>
      refine (built_prod .T l).trans ?_
      ext i j
      exact (hreal hr j i).symm
    | IT =>
      refine (built_prod .IH l).trans ?_
      ext i j
      exact hi j i
    | IH =>
      refine (built_prod .IT l).trans ?_
      ext i j
      exact (hi j i).symm

/-- Two complex matrices whose product is real, as required of a group with a real flag and a complex data type. -/
example : ∃ A B : Mat (Fin 2), (∀ i j, star (([A, B] : List (Mat (Fin 2))).prod i j) = ([A, B] : List (Mat (Fin 2))).prod i j) ∧ ¬ (∀ i j, star (A i j) = A i j) := by
  refine ⟨!![Complex.I, 0; 0, Complex.I], !![Complex.I, 3 * Complex.I; 0, -Complex.I], ?_, ?_⟩
  · intro i j
    fin_cases i <;> fin_cases j <;> simp [Matrix.mul_apply, Fin.sum_univ_two, Complex.ext_iff]
  · intro h
    have := congrArg Complex.im (h 0 0)
    simp at this
    norm_num at this

end Verif.Group
