import Verif.Flags.Merge
import Mathlib.Data.Complex.BigOperators
import Mathlib.Algebra.Module.LinearMap.Defs
import Mathlib.LinearAlgebra.Matrix.Notation
import Mathlib.Tactic.FinCases
import Mathlib.Tactic.Ring
import Mathlib.Tactic.NormNum

/-
Properties C12 and C13.  An operand is a function between spaces of complex vectors, of any sizes, which need not be
linear.
-/

namespace Verif.Flags

open scoped BigOperators

/-- Functions between complex vectors. -/
abbrev Fn (n m : ℕ) := (Fin n → ℂ) → (Fin m → ℂ)

/-- Meaning of the flags for a function.  An operator whose data type is not complex is real. -/
structure FnTrue {n m : ℕ} (o : OpFlags) (f : Fn n m) : Prop where
  linear : o.flags.linear = true → IsLinearMap ℂ f
  real : o.flags.real = true → ∀ x, f (fun i => star (x i)) = fun i => star (f x i)
  square : o.square = true → n = m
  symmetric : o.flags.symmetric = true → ∃ h : n = m, ∀ x y : Fin n → ℂ,
    ∑ i, f x (Fin.cast h i) * y i = ∑ i, x i * f y (Fin.cast h i)
  hermitian : o.flags.hermitian = true → ∃ h : n = m, ∀ x y : Fin n → ℂ,
    ∑ i, star (f x (Fin.cast h i)) * y i = ∑ i, star (x i) * f y (Fin.cast h i)
  idempotent : o.flags.idempotent = true → ∃ h : m = n, ∀ x, f (fun i => f x (Fin.cast h.symm i)) = f x
  involutary : o.flags.involutary = true → ∃ h : m = n, ∀ x i, f (fun i => f x (Fin.cast h.symm i)) i = x (Fin.cast h i)
  orthogonal : o.flags.orthogonal = true → ∃ h : n = m, ∀ x y : Fin n → ℂ,
    ∑ i, f x (Fin.cast h i) * f y (Fin.cast h i) = ∑ i, x i * y i
  unitary : o.flags.unitary = true → ∃ h : n = m, ∀ x y : Fin n → ℂ,
    ∑ i, star (f x (Fin.cast h i)) * f y (Fin.cast h i) = ∑ i, star (x i) * y i

/-- An operator as it can be constructed: a data type that is not complex implies the flag real. -/
def OpFlags.Constructed (o : OpFlags) : Prop := o.complexDtype = false → o.flags.real = true

/-- A composition `o₁ ∘ o₂ ∘ …` of operands of matching sizes. -/
inductive Chain : ℕ → ℕ → Type where
  | single {n m : ℕ} (o : OpFlags) (f : Fn n m) : Chain n m
  | cons {n k m : ℕ} (o : OpFlags) (f : Fn k m) (rest : Chain n k) : Chain n m

/-- The effect of the composition. -/
def Chain.eval : {n m : ℕ} → Chain n m → Fn n m
  | _, _, .single _ f => f
  | _, _, .cons _ f rest => fun x => f (rest.eval x)

def Chain.ops : {n m : ℕ} → Chain n m → List OpFlags
  | _, _, .single o _ => [o]
  | _, _, .cons o _ rest => o :: rest.ops

/-- All the operands satisfy their flags. -/
def Chain.Sat : {n m : ℕ} → Chain n m → Prop
  | _, _, .single o f => FnTrue o f ∧ o.Constructed
  | _, _, .cons o f rest => (FnTrue o f ∧ o.Constructed) ∧ rest.Sat

theorem Chain.linear {n m : ℕ} (c : Chain n m) (h : c.Sat)
    (hl : c.ops.all (fun o => o.flags.linear) = true) : IsLinearMap ℂ c.eval := by
  induction c with
  | single o f => unfold Chain.Sat at h; simp only [Chain.eval]; exact h.1.linear (by simpa [Chain.ops] using hl)
  | cons o f rest ih =>
    unfold Chain.Sat at h
    simp only [Chain.ops, List.all_cons, Bool.and_eq_true] at hl
    have h1 := h.1.1.linear hl.1
    have h2 := ih h.2 hl.2
    refine ⟨fun x y => ?_, fun a x => ?_⟩
    · simp only [Chain.eval]
      rw [h2.map_add, h1.map_add]
    · simp only [Chain.eval]
      rw [h2.map_smul, h1.map_smul]

theorem Chain.real {n m : ℕ} (c : Chain n m) (h : c.Sat) (hl : c.ops.all (fun o => o.flags.real) = true) :
    ∀ x, c.eval (fun i => star (x i)) = fun i => star (c.eval x i) := by
  induction c with
  | single o f => unfold Chain.Sat at h; simp only [Chain.eval]; exact h.1.real (by simpa [Chain.ops] using hl)
  | cons o f rest ih =>
    unfold Chain.Sat at h
    simp only [Chain.ops, List.all_cons, Bool.and_eq_true] at hl
    intro x
    simp only [Chain.eval]
    rw [ih h.2 hl.2, h.1.1.real hl.1]

theorem Chain.square {n m : ℕ} (c : Chain n m) (h : c.Sat) (hl : c.ops.all (fun o => o.square) = true) : n = m := by
  induction c with
  | single o f => unfold Chain.Sat at h; exact h.1.square (by simpa [Chain.ops] using hl)
  | cons o f rest ih =>
    unfold Chain.Sat at h
    simp only [Chain.ops, List.all_cons, Bool.and_eq_true] at hl
    exact (ih h.2 hl.2).trans (h.1.1.square hl.1)

theorem Chain.real_of_common {n m : ℕ} (c : Chain n m) (h : c.Sat) (hc : commonComplex c.ops = false) :
    c.ops.all (fun o => o.flags.real) = true := by
  induction c with
  | single o f =>
    unfold Chain.Sat at h
    simp only [Chain.ops, commonComplex, List.any_cons, List.any_nil, Bool.or_false] at hc
    simp [Chain.ops, h.2 hc]
  | cons o f rest ih =>
    unfold Chain.Sat at h
    simp only [Chain.ops, commonComplex, List.any_cons, Bool.or_eq_false_iff] at hc
    simp only [Chain.ops, List.all_cons, Bool.and_eq_true]
    exact ⟨h.1.2 hc.1, ih h.2 hc.2⟩

/-- The closure of the flags of a composition: only linear and real can be set. -/
theorem init_linear_real (complexDtype linear real : Bool) :
    initFlags complexDtype { linear := linear, real := real } =
      { linear := linear, real := real || !complexDtype } := by
  cases complexDtype <;> cases linear <;> cases real <;> rfl

/-- C12: if every operand satisfies its flags, the composition satisfies all the flags it is given. -/
theorem C12_composition_flags {n m : ℕ} (c : Chain n m) (h : c.Sat) :
    FnTrue (compositionFlags c.ops) c.eval ∧ (compositionFlags c.ops).Constructed := by
  have e : (compositionFlags c.ops).flags = {
      linear := c.ops.all (fun o => o.flags.linear),
      real := c.ops.all (fun o => o.flags.real) || !commonComplex c.ops } := init_linear_real _ _ _
  refine ⟨⟨?_, ?_, ?_, ?_, ?_, ?_, ?_, ?_, ?_⟩, ?_⟩
  · rw [e]; exact fun hl => c.linear h hl
  · rw [e]
    intro hr
    apply c.real h
    simp only [Bool.or_eq_true, Bool.not_eq_true'] at hr
    rcases hr with hr | hr
    · exact hr
    · exact c.real_of_common h hr
  · exact fun hs => c.square h hs
  all_goals first | (rw [e]; intro hf; cases hf) | skip
  intro hc
  rw [e]
  change commonComplex c.ops = false at hc
  simp [hc]

/-- Non-trivial instance: y ↦ (y₀ + i y₁, 0, y₀), flagged linear, composed with x ↦ (x₀², x₁), flagged real. -/
example : ∃ c : Chain 2 3, c.ops.length = 2 ∧ c.Sat ∧ (∃ o ∈ c.ops, o.flags.linear = true ∧ o.flags.real = false) :=
  ⟨.cons { flags := { linear := true }, complexDtype := true } (fun y => ![y 0 + Complex.I * y 1, 0, y 0])
      (.single { flags := { real := true } } (fun x => ![x 0 * x 0, x 1])),
    by simp [Chain.ops], by
    unfold Chain.Sat Chain.Sat; exact
    ⟨⟨⟨fun _ => ⟨fun x y => by
          funext i
          match i with
          | 0 => simp; ring
          | 1 => simp
          | 2 => simp,
        fun a x => by
          funext i
          match i with
          | 0 => simp; ring
          | 1 => simp
          | 2 => simp⟩, fun h => by simp at h, fun h => by simp at h, fun h => by simp at h, fun h => by simp at h,
        fun h => by simp at h, fun h => by simp at h, fun h => by simp at h, fun h => by simp at h⟩,
        fun h => by simp at h⟩,
      ⟨fun h => by simp at h, fun _ x => by
        funext i
        match i with
        | 0 => simp
        | 1 => simp, fun h => by simp at h, fun h => by simp at h, fun h => by simp at h,
        fun h => by simp at h, fun h => by simp at h, fun h => by simp at h, fun h => by simp at h⟩, fun _ => rfl⟩,
    ⟨{ flags := { linear := true }, complexDtype := true }, by simp [Chain.ops], rfl, rfl⟩⟩

/-- An operator with implicit shapes acting on vectors of any size. -/
abbrev Any := List ℂ → List ℂ

/-- Meaning of the flag separable, src/pyoperators/flags.py:250-257: it can be applied block by block. -/
def Separable (f : Any) : Prop := ∀ x y, f (x ++ y) = f x ++ f y

/-- C12: the composition of operators that satisfy their flag separable satisfies the flag separable it is given. -/
theorem C12_composition_separable (ops : List (OpFlags × Any))
    (h : ∀ o ∈ ops, o.1.separable = true → Separable o.2)
    (hs : (compositionFlags (ops.map Prod.fst)).separable = true) :
    Separable (ops.foldr (fun o g x => o.2 (g x)) (fun x => x)) := by
  change (ops.map Prod.fst).all (fun o => o.separable) = true at hs
  induction ops with
  | nil => exact fun x y => rfl
  | cons o ops ih =>
    simp only [List.map_cons, List.all_cons, Bool.and_eq_true] at hs
    have h1 := h o (by simp) hs.1
    have h2 := ih (fun o ho => h o (by simp [ho])) hs.2
    intro x y
    simp only [List.foldr_cons]
    rw [h2, h1]

example : ∃ ops : List (OpFlags × Any), ops.length = 2 ∧ (∀ o ∈ ops, o.1.separable = true → Separable o.2) ∧
    (compositionFlags (ops.map Prod.fst)).separable = true :=
  ⟨[({ flags := {}, separable := true }, List.map (fun z => z * z)),
    ({ flags := {}, separable := true }, List.map (fun z => z + 1))], rfl,
    by
      intro o ho _
      simp only [List.mem_cons, List.not_mem_nil, or_false] at ho
      rcases ho with rfl | rfl <;> exact fun x y => List.map_append, rfl⟩

/-! ### Sums -/

/-- An operand of a sum: all the operands have the same input and output sizes. -/
structure Term (n m : ℕ) where
  op : OpFlags
  fn : Fn n m

/-- The effect of the sum. -/
def sumEval {n m : ℕ} (ts : List (Term n m)) : Fn n m := fun x i => (ts.map (fun t => t.fn x i)).sum

def Terms.ops {n m : ℕ} (ts : List (Term n m)) : List OpFlags := ts.map Term.op

theorem sumEval_cons {n m : ℕ} (t : Term n m) (ts : List (Term n m)) (x : Fin n → ℂ) (i : Fin m) :
    sumEval (t :: ts) x i = t.fn x i + sumEval ts x i := by simp [sumEval]

theorem sum_linear {n m : ℕ} (ts : List (Term n m)) (h : ∀ t ∈ ts, FnTrue t.op t.fn)
    (hl : (ts.map Term.op).all (fun o => o.flags.linear) = true) : IsLinearMap ℂ (sumEval ts) := by
  induction ts with
  | nil => exact ⟨fun x y => by funext i; simp [sumEval], fun a x => by funext i; simp [sumEval]⟩
  | cons t ts ih =>
    simp only [List.map_cons, List.all_cons, Bool.and_eq_true] at hl
    have h1 := (h t (by simp)).linear hl.1
    have h2 := ih (fun t ht => h t (by simp [ht])) hl.2
    refine ⟨fun x y => ?_, fun a x => ?_⟩
    · funext i
      rw [Pi.add_apply, sumEval_cons, sumEval_cons, sumEval_cons, h1.map_add, h2.map_add, Pi.add_apply, Pi.add_apply]
      ring
    · funext i
      rw [Pi.smul_apply, sumEval_cons, sumEval_cons, h1.map_smul, h2.map_smul, Pi.smul_apply, Pi.smul_apply, smul_add]

theorem sum_real {n m : ℕ} (ts : List (Term n m)) (h : ∀ t ∈ ts, FnTrue t.op t.fn)
    (hl : (ts.map Term.op).all (fun o => o.flags.real) = true) :
    ∀ x, sumEval ts (fun i => star (x i)) = fun i => star (sumEval ts x i) := by
  induction ts with
  | nil => intro x; funext i; simp [sumEval]
  | cons t ts ih =>
    simp only [List.map_cons, List.all_cons, Bool.and_eq_true] at hl
    have h2 := ih (fun t ht => h t (by simp [ht])) hl.2
    intro x
    funext i
    rw [sumEval_cons, sumEval_cons, (h t (by simp)).real hl.1, h2, star_add]

theorem sum_symmetric {n : ℕ} (ts : List (Term n n)) (h : ∀ t ∈ ts, FnTrue t.op t.fn)
    (hl : (ts.map Term.op).all (fun o => o.flags.symmetric) = true) (x y : Fin n → ℂ) :
    ∑ i, sumEval ts x i * y i = ∑ i, x i * sumEval ts y i := by
  induction ts with
  | nil => simp [sumEval]
  | cons t ts ih =>
    simp only [List.map_cons, List.all_cons, Bool.and_eq_true] at hl
    have h2 := ih (fun t ht => h t (by simp [ht])) hl.2
    obtain ⟨_, h1⟩ := (h t (by simp)).symmetric hl.1
    have h1 := h1 x y
    simp only [Fin.cast_eq_self] at h1
    simp only [sumEval_cons, add_mul, mul_add, Finset.sum_add_distrib, h1, h2]

theorem size_of_symmetric {n m : ℕ} (ts : List (Term n m)) (hne : ts ≠ []) (h : ∀ t ∈ ts, FnTrue t.op t.fn)
    (hl : (ts.map Term.op).all (fun o => o.flags.symmetric) = true) : n = m := by
  cases ts with
  | nil => exact absurd rfl hne
  | cons t ts =>
    simp only [List.map_cons, List.all_cons, Bool.and_eq_true] at hl
    obtain ⟨e, _⟩ := (h t (by simp)).symmetric hl.1
    exact e

theorem real_of_common {n m : ℕ} (ts : List (Term n m)) (h : ∀ t ∈ ts, t.op.Constructed)
    (hc : commonComplex (ts.map Term.op) = false) : (ts.map Term.op).all (fun o => o.flags.real) = true := by
  simp only [List.all_map, List.all_eq_true, Function.comp]
  intro t ht
  apply h t ht
  simp only [commonComplex, List.any_map, List.any_eq_false] at hc
  simpa using hc t ht

theorem init_sum (complexDtype linear real symmetric : Bool) :
    initFlags complexDtype { linear := linear, real := real, symmetric := symmetric, hermitian := symmetric } =
      { linear := linear || symmetric, real := real || !complexDtype, symmetric := symmetric, hermitian := symmetric } := by
  cases complexDtype <;> cases linear <;> cases real <;> cases symmetric <;> rfl

/-- A symmetric function is linear: the flag symmetric implies it. -/
theorem linear_of_symmetric {n : ℕ} (f : Fn n n)
    (h : ∀ x y : Fin n → ℂ, ∑ i, f x i * y i = ∑ i, x i * f y i) : IsLinearMap ℂ f := by
  have key : ∀ x j, f x j = ∑ i, x i * f (Pi.single j 1) i := by
    intro x j
    rw [← h]
    simp [Pi.single_apply]
  refine ⟨fun x y => ?_, fun a x => ?_⟩
  · funext j
    rw [Pi.add_apply, key, key x, key y, ← Finset.sum_add_distrib]
    exact Finset.sum_congr rfl (fun i _ => by rw [Pi.add_apply]; ring)
  · funext j
    rw [Pi.smul_apply, key, key x, smul_eq_mul, Finset.mul_sum]
    exact Finset.sum_congr rfl (fun i _ => by rw [Pi.smul_apply, smul_eq_mul]; ring)

/-- C13, partial: if every operand satisfies its flags, the sum satisfies all the flags it is given, apart from the flag
hermitian, which is right if the sum is not flagged symmetric or if all the operands are real.
Missing from the full property: the flag hermitian of the sum of complex symmetric operands
(`C13_addition_hermitian_fails`). -/
theorem C13_addition_flags_partial {n m : ℕ} (ts : List (Term n m)) (hne : ts ≠ [])
    (h : ∀ t ∈ ts, FnTrue t.op t.fn) (hk : ∀ t ∈ ts, t.op.Constructed)
    (hreal : (∀ t ∈ ts, t.op.flags.symmetric = true) → ∀ t ∈ ts, t.op.flags.real = true) :
    FnTrue (additionFlags (ts.map Term.op)) (sumEval ts) ∧ (additionFlags (ts.map Term.op)).Constructed := by
  have e : (additionFlags (ts.map Term.op)).flags = {
      linear := (ts.map Term.op).all (fun o => o.flags.linear) || (ts.map Term.op).all (fun o => o.flags.symmetric),
      real := (ts.map Term.op).all (fun o => o.flags.real) || !commonComplex (ts.map Term.op),
      symmetric := (ts.map Term.op).all (fun o => o.flags.symmetric),
      hermitian := (ts.map Term.op).all (fun o => o.flags.symmetric) } := init_sum _ _ _ _
  refine ⟨⟨?_, ?_, ?_, ?_, ?_, ?_, ?_, ?_, ?_⟩, ?_⟩
  · rw [e]
    intro hl
    simp only [Bool.or_eq_true] at hl
    rcases hl with hl | hl
    · exact sum_linear ts h hl
    · obtain rfl := size_of_symmetric ts hne h hl
      exact linear_of_symmetric _ (sum_symmetric ts h hl)
  · rw [e]
    intro hr
    apply sum_real ts h
    simp only [Bool.or_eq_true, Bool.not_eq_true'] at hr
    rcases hr with hr | hr
    · exact hr
    · exact real_of_common ts hk hr
  · intro hs
    change (ts.map Term.op).any (fun o => o.square) = true at hs
    simp only [List.any_map, List.any_eq_true, Function.comp] at hs
    obtain ⟨t, ht, hs⟩ := hs
    exact (h t ht).square hs
  · rw [e]
    intro hl
    obtain rfl := size_of_symmetric ts hne h hl
    exact ⟨rfl, fun x y => by simpa using sum_symmetric ts h hl x y⟩
  · rw [e]
    intro hl
    obtain rfl := size_of_symmetric ts hne h hl
    refine ⟨rfl, fun x y => ?_⟩
    have hr := sum_real ts h (by
      simp only [List.all_map, List.all_eq_true, Function.comp] at hl ⊢
      exact hreal hl)
    have hs := sum_symmetric ts h hl (fun i => star (x i)) y
    rw [hr] at hs
    simpa using hs
  all_goals first | (rw [e]; intro hf; cases hf) | skip
  intro hc
  rw [e]
  change commonComplex (ts.map Term.op) = false at hc
  simp [hc]

/-- Non-trivial instance: the sum of two real symmetric operators of size 2. -/
def swapTerm : Term 2 2 :=
  ⟨{ flags := { linear := true, real := true, symmetric := true, hermitian := true } }, fun x => ![x 1, x 0]⟩

theorem swapTerm_true : FnTrue swapTerm.op swapTerm.fn where
  linear _ := ⟨fun x y => by funext i; fin_cases i <;> simp [swapTerm],
    fun a x => by funext i; fin_cases i <;> simp [swapTerm]⟩
  real _ x := by funext i; fin_cases i <;> simp [swapTerm]
  square h := by simp [swapTerm] at h
  symmetric _ := ⟨rfl, fun x y => by simp [swapTerm, Fin.sum_univ_two]; ring⟩
  hermitian _ := ⟨rfl, fun x y => by simp [swapTerm, Fin.sum_univ_two]; ring⟩
  idempotent h := by simp [swapTerm] at h
  involutary h := by simp [swapTerm] at h
  orthogonal h := by simp [swapTerm] at h
  unitary h := by simp [swapTerm] at h

example : FnTrue (additionFlags [swapTerm.op, swapTerm.op]) (sumEval [swapTerm, swapTerm]) :=
  (C13_addition_flags_partial [swapTerm, swapTerm] (by simp) (by simp [swapTerm_true])
    (by simp [swapTerm, OpFlags.Constructed]) (by simp [swapTerm])).1

/-- C13: the sum of operators that satisfy their flag separable satisfies the flag separable it is given.  The
operands give outputs of the same size for the same input, otherwise the sum is not defined. -/
theorem C13_addition_separable (o : OpFlags × Any) (ops : List (OpFlags × Any))
    (h : ∀ p ∈ o :: ops, p.1.separable = true → Separable p.2)
    (hlen : ∀ p ∈ ops, ∀ x, (p.2 x).length = (o.2 x).length)
    (hs : (additionFlags ((o :: ops).map Prod.fst)).separable = true) :
    Separable (fun x => ops.foldl (fun acc p => List.zipWith (· + ·) acc (p.2 x)) (o.2 x)) := by
  change ((o :: ops).map Prod.fst).all (fun o => o.separable) = true at hs
  have key : ∀ (l : List (OpFlags × Any)), (∀ p ∈ l, Separable p.2) → ∀ (x y : List ℂ)
      (a b : List ℂ), (∀ p ∈ l, (p.2 x).length = a.length) → (∀ p ∈ l, (p.2 y).length = b.length) →
      l.foldl (fun acc p => List.zipWith (· + ·) acc (p.2 (x ++ y))) (a ++ b) =
        l.foldl (fun acc p => List.zipWith (· + ·) acc (p.2 x)) a ++
        l.foldl (fun acc p => List.zipWith (· + ·) acc (p.2 y)) b := by
    intro l
    induction l with
    | nil => intros; rfl
    | cons p l ih =>
      intro hsep x y a b ha hb
      simp only [List.foldl_cons]
      rw [hsep p (by simp) x y, List.zipWith_append (ha p (by simp)).symm]
      apply ih (fun q hq => hsep q (by simp [hq]))
      · intro q hq
        rw [List.length_zipWith, ha p (by simp), ha q (by simp [hq]), Nat.min_self]
      · intro q hq
        rw [List.length_zipWith, hb p (by simp), hb q (by simp [hq]), Nat.min_self]
  have hall : ∀ p ∈ o :: ops, Separable p.2 := by
    intro p hp
    refine h p hp ?_
    rw [List.all_map, List.all_eq_true] at hs
    exact hs p hp
  intro x y
  simp only
  rw [hall o (by simp) x y]
  exact key ops (fun p hp => hall p (by simp [hp])) x y _ _ (fun p hp => hlen p hp x) (fun p hp => hlen p hp y)

example : ∃ (o : OpFlags × Any) (ops : List (OpFlags × Any)), ops ≠ [] ∧
    (∀ p ∈ o :: ops, p.1.separable = true → Separable p.2) ∧
    (∀ p ∈ ops, ∀ x, (p.2 x).length = (o.2 x).length) ∧
    (additionFlags ((o :: ops).map Prod.fst)).separable = true :=
  ⟨({ flags := {}, separable := true }, List.map (fun z => z * z)),
    [({ flags := {}, separable := true }, List.map (fun z => z + 1))], by simp,
    by
      intro o ho _
      simp only [List.mem_cons, List.not_mem_nil, or_false] at ho
      rcases ho with rfl | rfl <;> exact fun x y => List.map_append, by simp, rfl⟩

/-- The effect of the element-wise product. -/
def prodEval {n m : ℕ} (ts : List (Term n m)) : Fn n m := fun x i => (ts.map (fun t => t.fn x i)).prod

theorem prodEval_cons {n m : ℕ} (t : Term n m) (ts : List (Term n m)) (x : Fin n → ℂ) (i : Fin m) :
    prodEval (t :: ts) x i = t.fn x i * prodEval ts x i := by simp [prodEval]

theorem prod_real {n m : ℕ} (ts : List (Term n m)) (h : ∀ t ∈ ts, FnTrue t.op t.fn)
    (hl : (ts.map Term.op).all (fun o => o.flags.real) = true) :
    ∀ x, prodEval ts (fun i => star (x i)) = fun i => star (prodEval ts x i) := by
  induction ts with
  | nil => intro x; funext i; simp [prodEval]
  | cons t ts ih =>
    simp only [List.map_cons, List.all_cons, Bool.and_eq_true] at hl
    have h2 := ih (fun t ht => h t (by simp [ht])) hl.2
    intro x
    funext i
    rw [prodEval_cons, prodEval_cons, (h t (by simp)).real hl.1, h2, star_mul']

/-- C53: if every operand satisfies its flags, the element-wise product satisfies all the flags it is given (in
particular it is never flagged linear). -/
theorem C53_multiplication_flags {n m : ℕ} (ts : List (Term n m))
    (h : ∀ t ∈ ts, FnTrue t.op t.fn) (hk : ∀ t ∈ ts, t.op.Constructed) :
    FnTrue (multiplicationFlags (ts.map Term.op)) (prodEval ts) ∧
      (multiplicationFlags (ts.map Term.op)).Constructed := by
  have e : (multiplicationFlags (ts.map Term.op)).flags = {
      real := (ts.map Term.op).all (fun o => o.flags.real) || !commonComplex (ts.map Term.op) } :=
    init_linear_real _ false _
  refine ⟨⟨?_, ?_, ?_, ?_, ?_, ?_, ?_, ?_, ?_⟩, ?_⟩
  · rw [e]; intro hf; cases hf
  · rw [e]
    intro hr
    apply prod_real ts h
    simp only [Bool.or_eq_true, Bool.not_eq_true'] at hr
    rcases hr with hr | hr
    · exact hr
    · exact real_of_common ts hk hr
  · intro hs
    change (ts.map Term.op).any (fun o => o.square) = true at hs
    simp only [List.any_map, List.any_eq_true, Function.comp] at hs
    obtain ⟨t, ht, hs⟩ := hs
    exact (h t ht).square hs
  all_goals first | (rw [e]; intro hf; cases hf) | skip
  intro hc
  rw [e]
  change commonComplex (ts.map Term.op) = false at hc
  simp [hc]

example : FnTrue (multiplicationFlags [swapTerm.op, swapTerm.op]) (prodEval [swapTerm, swapTerm]) :=
  (C53_multiplication_flags [swapTerm, swapTerm] (by simp [swapTerm_true])
    (by simp [swapTerm, OpFlags.Constructed])).1

/-- The multiplication by i of a number: complex, symmetric and not hermitian. -/
def imaginary : Term 1 1 :=
  ⟨{ flags := initFlags true { symmetric := true }, complexDtype := true }, fun x i => Complex.I * x i⟩

theorem imaginary_true : FnTrue imaginary.op imaginary.fn where
  linear _ := ⟨fun x y => by funext i; simp [imaginary, mul_add],
    fun a x => by funext i; simp [imaginary]; ring⟩
  real h := absurd h (by decide)
  square h := absurd h (by decide)
  symmetric _ := ⟨rfl, fun x y => by simp [imaginary]; ring⟩
  hermitian h := absurd h (by decide)
  idempotent h := absurd h (by decide)
  involutary h := absurd h (by decide)
  orthogonal h := absurd h (by decide)
  unitary h := absurd h (by decide)

/-- C13 is violated by the code: the sum of two complex symmetric operators is flagged hermitian. -/
theorem C13_addition_hermitian_fails :
    ∃ ts : List (Term 1 1), (∀ t ∈ ts, FnTrue t.op t.fn ∧ t.op.Constructed) ∧ ts.length = 2 ∧
      (additionFlags (ts.map Term.op)).flags.hermitian = true ∧
      ¬ FnTrue (additionFlags (ts.map Term.op)) (sumEval ts) := by
  refine ⟨[imaginary, imaginary], ?_, rfl, by decide, ?_⟩
  · intro t ht
    have : t = imaginary := by simpa using ht
    subst this
    exact ⟨imaginary_true, by intro h; simp [imaginary] at h⟩
  · intro h
    obtain ⟨_, h⟩ := h.hermitian (by decide)
    have h := h (fun _ => 1) (fun _ => 1)
    simp [sumEval, imaginary] at h
    have h2 := congrArg Complex.im h
    simp at h2
    norm_num at h2

end Verif.Flags
