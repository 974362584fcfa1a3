import Verif.Pack.Props
import Mathlib.Algebra.BigOperators.Group.Finset.Basic
import Mathlib.Algebra.BigOperators.Ring.Finset
import Mathlib.Data.Complex.Basic
import Mathlib.Tactic.LinearCombination

/-
Model of the linear operators that work along an axis: src/pyoperators/linear.py:1828-1862 (`DifferenceOperator`) and 1297-1340
(`SumOperator`), with the class of the reductions: src/pyoperators/core.py:4569-4655 (`ReductionOperator`).
-/

namespace Verif.Linear.Axis

open Verif.Shape Verif.Block Verif.Broadcast Verif.Pack

variable {R : Type}

/-- The position of an axis, or `none` for the IndexError of an axis that does not exist. -/
def position (n : Nat) (axis : Int) : Option Nat := if -(n : Int) ≤ axis ∧ axis < n then some (pyIndex n axis) else none

/-! ### Differences -/

/-- `DifferenceOperator.direct`, with the shape of the output given by `reshapein`: src/pyoperators/linear.py:1840-1841 and 1853-1856.
The shape would have the length -1 along an empty axis, which is an error. -/
def diffDirect [Ring R] (axis : Int) (x : Data R) : Option (Data R) := do
  let p ← position x.shape.length axis
  if x.shape.getD p 0 = 0 then none
  else some ⟨x.shape.modify p (· - 1), fun k => x.get (k.modify p (· + 1)) - x.get k⟩

/-- `DifferenceOperator.transpose`, with the shape of the output given by `reshapeout`: src/pyoperators/linear.py:1843-1851 and
1858-1861.  `cast` is the conversion of the values that are assigned to the array of floating-point numbers `tmp`. -/
def diffTranspose [Ring R] (cast : R → R) (axis : Int) (y : Data R) : Option (Data R) := do
  let p ← position y.shape.length axis
  let tmp : MIndex → R := fun k =>
    if 1 ≤ k.getD p 0 ∧ k.getD p 0 < y.shape.getD p 0 + 1 then cast (y.get (k.modify p (· - 1))) else 0
  some ⟨y.shape.modify p (· + 1), fun k => -(tmp (k.modify p (· + 1)) - tmp k)⟩

/-! ### Sums -/

/-- The sum along an axis, or of all the elements: src/pyoperators/core.py:4636-4655 (shapes and validation) and
src/pyoperators/linear.py:1322-1330.  NaN are not modelled. -/
def sumDirect [AddCommMonoid R] (axis : Option Int) (x : Data R) : Option (Data R) :=
  if x.shape = [] then none
  else match axis with
  | none => some ⟨[], fun _ => ((enum x.shape).map x.get).sum⟩
  | some a => (position x.shape.length a).map fun p =>
      ⟨x.shape.eraseIdx p, fun k => ∑ i ∈ Finset.range (x.shape.getD p 0), x.get (k.insertIdx p i)⟩

/-- The place of a Python slice bound in a tuple of length n. -/
def bound (n : Nat) (a : Int) : Nat := if 0 ≤ a then min a.toNat n else (n + a).toNat

/-- The assignment of an array to all the elements of an array of a given shape, with broadcasting. -/
def broadcastTo (a : Data R) (s : Shape) : Option (Data R) :=
  let m := s.length - a.shape.length
  if a.shape.length ≤ s.length ∧ (List.zipWith (fun d e => decide (d = e ∨ d = 1)) a.shape (s.drop m)).all id then
    some ⟨s, fun k => a.get (List.zipWith (fun d i => if d = 1 then 0 else i) a.shape (k.drop m))⟩
  else none

/-- `input.reshape(shape)`, the shape being the one of the input with a 1 inserted at a given position. -/
def insertOne (y : Data R) (q : Nat) : Data R := ⟨y.shape.take q ++ 1 :: y.shape.drop q, fun k => y.get (k.eraseIdx q)⟩

/-- `SumOperator.transpose`: src/pyoperators/linear.py:1332-1339.  `input.reshape(None)` is the input itself. -/
def sumTranspose (shapein : Shape) (axis : Option Int) (y : Data R) : Option (Data R) :=
  match axis with
  | none => broadcastTo y shapein
  | some a => broadcastTo (insertOne y (if a = -1 then y.shape.length else bound y.shape.length a)) shapein

/-! ### Lemmas -/

theorem sum_axis [AddCommMonoid R] (s1 s2 : Shape) (n : Nat) (g : MIndex → R) : ((enum (s1 ++ n :: s2)).map g).sum =
    ((enum s1).map fun k1 => ((enum s2).map fun k2 => ∑ i ∈ Finset.range n, g (k1 ++ i :: k2)).sum).sum := by
  rw [enum_append, sum_flatMap]
  congr 1
  apply List.map_congr_left
  intro k1 _
  rw [List.map_map, enum, sum_flatMap]
  have : ∀ f : Nat → R, ((List.range n).map f).sum = ∑ i ∈ Finset.range n, f i := by
    intro f
    induction n with
    | zero => simp
    | succ n ih => rw [List.range_succ, List.map_append, List.sum_append, ih, Finset.sum_range_succ]; simp
  rw [show (fun i => (((enum s2).map (i :: ·)).map ((g ∘ (k1 ++ ·)))).sum) =
    fun i => ((enum s2).map fun k2 => g (k1 ++ i :: k2)).sum from by
      funext i; rw [List.map_map]; rfl, sum_swap]
  simp only [this]

theorem position_split {s : Shape} {axis : Int} {p : Nat} (h : position s.length axis = some p) :
    ∃ s1 n s2, s = s1 ++ n :: s2 ∧ s1.length = p := by
  rw [position] at h
  split at h
  · rename_i h1
    simp only [Option.some.injEq] at h
    have hp : p < s.length := by
      rw [← h, pyIndex]; split <;> omega
    exact ⟨s.take p, s[p], s.drop (p + 1), by simp, by simp; omega⟩
  · simp at h

theorem modify_middle {α : Type} (l1 l2 : List α) (a : α) (f : α → α) : (l1 ++ a :: l2).modify l1.length f = l1 ++ f a :: l2 := by
  induction l1 with
  | nil => rfl
  | cons b l1 ih => simp only [List.length_cons, List.cons_append, List.modify_succ_cons, ih]

theorem getD_middle (l1 l2 : List Nat) (a d : Nat) : (l1 ++ a :: l2).getD l1.length d = a := by
  simp [List.getD_eq_getElem?_getD]

/-- Summation by parts. -/
theorem by_parts [CommRing R] (x y : Nat → R) (n : Nat) :
    ∑ i ∈ Finset.range n, (x (i + 1) - x i) * y i =
      ∑ i ∈ Finset.range (n + 1), x i * -((if 1 ≤ i + 1 ∧ i + 1 < n + 1 then y (i + 1 - 1) else 0) -
        if 1 ≤ i ∧ i < n + 1 then y (i - 1) else 0) := by
  rw [Finset.sum_range_succ]
  have : ∀ m ≤ n, ∑ i ∈ Finset.range m, x i * -((if 1 ≤ i + 1 ∧ i + 1 < n + 1 then y (i + 1 - 1) else 0) -
        if 1 ≤ i ∧ i < n + 1 then y (i - 1) else 0) =
      ∑ i ∈ Finset.range m, (x (i + 1) - x i) * y i - if 1 ≤ m then x m * y (m - 1) else 0 := by
    intro m
    induction m with
    | zero => intro _; simp
    | succ m ih =>
      intro hm
      rw [Finset.sum_range_succ, ih (by omega), Finset.sum_range_succ, if_pos (show 1 ≤ m + 1 ∧ m + 1 < n + 1 by omega),
        if_pos (show 1 ≤ m + 1 by omega)]
      simp only [Nat.add_sub_cancel]
      by_cases h : 1 ≤ m
      · rw [if_pos h, if_pos ⟨h, by omega⟩]; ring
      · rw [if_neg h, if_neg (by omega)]; ring
  rw [this n (le_refl _), if_neg (show ¬ (1 ≤ n + 1 ∧ n + 1 < n + 1) by omega)]
  by_cases h : 1 ≤ n
  · rw [if_pos h, if_pos ⟨h, by omega⟩]; ring
  · rw [if_neg h, if_neg (by omega)]; ring

/-- **C35**, difference operators: the transpose is the adjoint, along any axis of arrays of any shape, if the conversion to
floating-point numbers does not change the values.  Missing: complex inputs, see C35_difference_fails. -/
theorem C35_difference_partial [CommRing R] {axis : Int} {x y ax : Data R} (hx : diffDirect axis x = some ax) (hs : ax.shape = y.shape) :
    ∃ ty, diffTranspose id axis y = some ty ∧ ty.shape = x.shape ∧ inner ax y = inner x ty := by
  simp only [diffDirect, Option.bind_eq_bind, Option.bind_eq_some_iff] at hx
  obtain ⟨p, hp, hx⟩ := hx
  obtain ⟨s1, n, s2, hsx, rfl⟩ := position_split hp
  rw [hsx, getD_middle, modify_middle] at hx
  split at hx
  · simp at hx
  rename_i hn
  simp only [Option.some.injEq] at hx
  have hsy : y.shape = s1 ++ (n - 1) :: s2 := by rw [← hs, ← hx]
  have hlen : y.shape.length = x.shape.length := by rw [hsx, hsy]; simp
  simp only [diffTranspose, Option.bind_eq_bind, hlen, hp, Option.bind_some, Option.some.injEq, exists_eq_left']
  obtain ⟨m, rfl⟩ : ∃ m, n = m + 1 := ⟨n - 1, by omega⟩
  simp only [Nat.add_sub_cancel] at hsy
  rw [hsy, modify_middle, getD_middle]
  subst hx
  refine ⟨hsx.symm, ?_⟩
  rw [inner, inner, hsx]
  simp only [Nat.add_sub_cancel]
  rw [sum_axis, sum_axis]
  congr 1
  apply List.map_congr_left
  intro k1 hk1
  congr 1
  apply List.map_congr_left
  intro k2 _
  have hl : k1.length = s1.length := enum_length hk1
  simp only [← hl, modify_middle, getD_middle, id]
  exact by_parts (fun i => x.get (k1 ++ i :: k2)) (fun i => y.get (k1 ++ i :: k2)) m

theorem eraseIdx_middle (l1 l2 : List Nat) (a : Nat) : (l1 ++ a :: l2).eraseIdx l1.length = l1 ++ l2 := by
  rw [List.eraseIdx_append_of_length_le (by omega)]; simp

theorem insertIdx_middle (l1 l2 : List Nat) (a : Nat) : (l1 ++ l2).insertIdx l1.length a = l1 ++ a :: l2 := by
  induction l1 with
  | nil => rfl
  | cons b l1 ih => simp only [List.length_cons, List.cons_append, List.insertIdx_succ_cons, ih]

theorem zipWith_append_eq {α β γ : Type} (f : α → β → γ) (l1 l2 : List α) (m1 m2 : List β) (h : l1.length = m1.length) :
    List.zipWith f (l1 ++ l2) (m1 ++ m2) = List.zipWith f l1 m1 ++ List.zipWith f l2 m2 := List.zipWith_append h

theorem clamp_self : ∀ {s : Shape} {k : MIndex}, inShape s k = true → List.zipWith (fun d i => if d = 1 then 0 else i) s k = k
  | [], [], _ => rfl
  | [], _ :: _, h => by simp [inShape] at h
  | _ :: _, [], h => by simp [inShape] at h
  | d :: s, i :: k, h => by
    simp only [inShape, Bool.and_eq_true, decide_eq_true_eq] at h
    rw [List.zipWith_cons_cons, clamp_self h.2]
    split
    · congr 1; omega
    · rfl

/-- **C35**, sum operators: the transpose is the adjoint, along any axis of arrays of any shape, or for the sum of all the elements, if
the axis is not both negative and neither the last nor the first one.  Missing: these axes, see C35_sum_fails. -/
theorem C35_sum_partial [CommSemiring R] {axis : Option Int} {x y ax : Data R} (hx : sumDirect axis x = some ax) (hs : ax.shape = y.shape)
    (ha : ∀ a, axis = some a → -1 ≤ a ∨ a = -(x.shape.length : Int)) :
    ∃ ty, sumTranspose x.shape axis y = some ty ∧ ty.shape = x.shape ∧ inner ax y = inner x ty := by
  unfold sumDirect at hx
  split at hx
  · simp at hx
  cases axis with
  | none =>
    simp only [Option.some.injEq] at hx
    have hsy : y.shape = [] := by rw [← hs, ← hx]
    simp only [sumTranspose, broadcastTo, hsy]
    rw [if_pos (by simp)]
    subst hx
    refine ⟨_, rfl, rfl, ?_⟩
    simp only [inner, enum, List.map_cons, List.map_nil, List.sum_cons, List.sum_nil, add_zero, List.zipWith_nil_left]
    rw [← List.sum_map_mul_right]
  | some a =>
    simp only [Option.map_eq_some_iff] at hx
    obtain ⟨p, hp, hx⟩ := hx
    obtain ⟨s1, n, s2, hsx, rfl⟩ := position_split hp
    rw [hsx, eraseIdx_middle, getD_middle] at hx
    have hsy : y.shape = s1 ++ s2 := by rw [← hs, ← hx]
    have hq : (if a = -1 then y.shape.length else bound y.shape.length a) = s1.length := by
      have h1 : y.shape.length = s1.length + s2.length := by rw [hsy]; simp
      have h2 : x.shape.length = s1.length + s2.length + 1 := by rw [hsx]; simp; omega
      rw [position, h2] at hp
      split at hp
      · rename_i hr
        simp only [Option.some.injEq, pyIndex] at hp
        have := ha a rfl
        rw [h2] at this
        rw [h1, bound]
        split at hp <;> split <;> (try split) <;> omega
      · simp at hp
    have hi : insertOne y s1.length = ⟨s1 ++ 1 :: s2, fun k => y.get (k.eraseIdx s1.length)⟩ := by
      rw [insertOne, hsy, List.take_left, List.drop_left]
    have h0 : (s1 ++ n :: s2).length - (s1 ++ 1 :: s2).length = 0 := by simp
    have hok : ∀ s : Shape, (List.zipWith (fun d e => decide (d = e ∨ d = 1)) s s).all id = true := by
      intro s
      induction s with
      | nil => rfl
      | cons d s ih => simp [ih]
    simp only [sumTranspose]
    rw [hq, hi, hsx]
    simp only [broadcastTo]
    rw [if_pos ⟨by simp, by
      rw [h0, List.drop_zero, zipWith_append_eq _ _ _ _ _ rfl, List.all_append, hok, List.zipWith_cons_cons, List.all_cons, hok]
      simp⟩]
    · subst hx
      refine ⟨_, rfl, rfl, ?_⟩
      rw [inner, inner, hsx]
      simp only
      rw [sum_axis, enum_append, sum_flatMap]
      congr 1
      apply List.map_congr_left
      intro k1 hk1
      rw [List.map_map]
      congr 1
      apply List.map_congr_left
      intro k2 hk2
      have hl : k1.length = s1.length := enum_length hk1
      simp only [Function.comp, ← hl, insertIdx_middle]
      rw [Finset.sum_mul]
      apply Finset.sum_congr rfl
      intro i _
      congr 2
      rw [h0, List.drop_zero, zipWith_append_eq _ _ _ _ _ hl.symm, List.zipWith_cons_cons, clamp_self (mem_enum.1 hk1),
        clamp_self (mem_enum.1 hk2), eraseIdx_middle]

/-- An array of one element different from zero. -/
def unit (s : Shape) (k : MIndex) : Data Int := ⟨s, fun l => if l = k then 1 else 0⟩

/-- The hypotheses of C35_difference_partial are met. -/
example : ∃ ax ty : Data Int, diffDirect (-2) (unit [2, 3, 2] [0, 1, 1]) = some ax ∧
    diffTranspose id (-2) (unit [2, 2, 2] [0, 1, 1]) = some ty ∧ ax.shape = [2, 2, 2] ∧ ty.flat = [0, 0, 0, -1, 0, 1, 0, 0, 0, 0, 0, 0] ∧
    inner ax (unit [2, 2, 2] [0, 1, 1]) = -1 := ⟨_, _, rfl, rfl, rfl, by decide, by decide⟩

/-- The hypotheses of C35_sum_partial are met. -/
example : ∃ ax ty : Data Int, sumDirect (some 1) (unit [2, 3, 2] [0, 1, 1]) = some ax ∧
    sumTranspose [2, 3, 2] (some 1) (unit [2, 2] [0, 1]) = some ty ∧ ax.shape = [2, 2] ∧
    ty.flat = [0, 1, 0, 1, 0, 1, 0, 0, 0, 0, 0, 0] ∧ inner ax (unit [2, 2] [0, 1]) = 1 :=
  ⟨_, _, rfl, rfl, rfl, by decide, by decide⟩

/-- **C35 does not hold** for sum operators along negative axes in the middle: along the axis -2 of an array of shape (2, 2, 2), the
transpose repeats its input along the axis 0. -/
theorem C35_sum_fails : ∃ x y ax ty : Data Int, sumDirect (some (-2)) x = some ax ∧ sumTranspose x.shape (some (-2)) y = some ty ∧
    ax.shape = y.shape ∧ x.shape = [2, 2, 2] ∧ inner ax y = 1 ∧ inner x ty = 0 :=
  ⟨unit [2, 2, 2] [0, 1, 0], unit [2, 2] [0, 0], _, _, rfl, rfl, rfl, rfl, by decide, by decide⟩

/-- **C35 does not hold** for sum operators along negative axes in the middle: for other shapes, the transpose raises. -/
theorem C35_sum_raises_fails : ∃ x y ax : Data Int, sumDirect (some (-2)) x = some ax ∧ ax.shape = y.shape ∧
    sumTranspose x.shape (some (-2)) y = none := ⟨unit [2, 3, 4] [0, 0, 0], unit [2, 4] [0, 0], _, rfl, rfl, rfl⟩

/-- **C35 does not hold** for difference operators applied to complex vectors: the imaginary part is lost by the transpose. -/
theorem C35_difference_fails : ∃ x y ax ty : Data ℂ, diffDirect (-1) x = some ax ∧ ax.shape = y.shape ∧
    diffTranspose (fun z => (z.re : ℂ)) (-1) y = some ty ∧ inner ax y = Complex.I ∧ inner x ty = 0 := by
  refine ⟨⟨[2], fun k => if k = [1] then 1 else 0⟩, ⟨[1], fun _ => Complex.I⟩, _, _, rfl, rfl, rfl, ?_, ?_⟩
  · simp [inner, enum, pyIndex]
  · simp [inner, enum, pyIndex]

end Verif.Linear.Axis
